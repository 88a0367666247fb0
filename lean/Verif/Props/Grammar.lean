import Verif.Props.AnyBinary
/-!
C65, C66: the server understands exactly the requests of `Spec/Grammar.lean`, and what it does with the rest.
-/

namespace Verif
namespace Props
open Srv Spec

variable {σ : Type}

theorem readBody_iff {q : Protocol} {i rest : Bytes} {req : Request} :
    readBody q i = (.ok req, rest) ↔ ∃ m, i = m ++ rest ∧ IsRequest q m req := by
  cases q
  · exact readAscii_iff
  · exact readBinary_iff

theorem readRequest_iff {q p : Protocol} {i rest : Bytes} {req : Request} :
    readRequest (some q) i = (.ok (p, req), rest) ↔ p = q ∧ ∃ m, i = m ++ rest ∧ IsRequest q m req := by
  rw [← readBody_iff]
  unfold readRequest
  rw [Rd.bind_of_ok (show protoOf (some q) i = (.ok q, i) from rfl), Rd.bind_apply]
  cases readBody q i with
  | mk x j =>
    cases x with
    | ok a =>
      simp only [Rd.pure_apply, Prod.mk.injEq, Res.ok.injEq]
      constructor
      · rintro ⟨⟨rfl, rfl⟩, rfl⟩; exact ⟨rfl, rfl, rfl⟩
      · rintro ⟨rfl, rfl, rfl⟩; exact ⟨⟨rfl, rfl⟩, rfl⟩
    | err e => simp
    | panic => simp

/-- C65: on a connection that speaks text, the server reads a request exactly when the stream begins with one of the
grammar; it is the request the grammar says, and reading stops at its end. -/
theorem C65_text (i rest : Bytes) (req : Request) :
    readRequest (some .ascii) i = (.ok (.ascii, req), rest) ↔ ∃ m, i = m ++ rest ∧ IsText m req := by
  rw [readRequest_iff]
  exact ⟨fun h => h.2, fun h => ⟨rfl, h⟩⟩

/-- C66: on a connection that speaks binary, the server reads a request exactly when the stream begins with one of
the grammar; it is the request the grammar says, and reading stops at its end. -/
theorem C66_binary (i rest : Bytes) (req : Request) :
    readRequest (some .binary) i = (.ok (.binary, req), rest) ↔ ∃ m, i = m ++ rest ∧ IsBinary m req := by
  rw [readRequest_iff]
  exact ⟨fun h => h.2, fun h => ⟨rfl, h⟩⟩

theorem isRequest_ne_nil {q : Protocol} {m : Bytes} {req : Request} (h : IsRequest q m req) : m ≠ [] := by
  rintro rfl
  have := readRequest_lt (readRequest_iff.2 ⟨rfl, [], rfl, h⟩ : readRequest (some q) ([] ++ []) = (.ok (q, req), []))
  simp at this

/-- C65: the first request of a connection, when it is text: as any other, but it must not begin with the byte that
announces the binary protocol. -/
theorem C65_first (i rest : Bytes) (req : Request) :
    readRequest none i = (.ok (.ascii, req), rest) ↔ ∃ m, i = m ++ rest ∧ IsText m req ∧ m.head? ≠ some 0x80 := by
  cases i with
  | nil =>
    constructor
    · intro h; simp [readRequest, protoOf, detect, Rd.bind_apply] at h
    · rintro ⟨m, he, hm, _⟩
      have h0 : m = [] := (List.append_eq_nil_iff.1 he.symm).1
      exact absurd h0 (isRequest_ne_nil (q := .ascii) hm)
  | cons b i =>
    rw [readRequest_none, readRequest_iff]
    constructor
    · rintro ⟨hp, m, he, hm⟩
      rw [← hp] at hm
      refine ⟨m, he, hm, ?_⟩
      cases m with
      | nil => exact absurd rfl (isRequest_ne_nil hm)
      | cons c m =>
        simp only [List.cons_append, List.cons.injEq] at he
        obtain ⟨rfl, _⟩ := he
        unfold protocolOf at hp
        split at hp
        · cases hp
        · rename_i hb
          simpa using hb
    · rintro ⟨m, he, hm, hh⟩
      cases m with
      | nil => exact absurd rfl (isRequest_ne_nil (q := .ascii) hm)
      | cons c m =>
        have he' := he
        simp only [List.cons_append, List.cons.injEq] at he'
        obtain ⟨rfl, _⟩ := he'
        have hp : protocolOf b = .ascii := by
          unfold protocolOf
          rw [if_neg (by simpa using hh)]
        rw [hp]
        exact ⟨rfl, _, he, hm⟩

/-- C66: the first request of a connection, when it is binary. -/
theorem C66_first (i rest : Bytes) (req : Request) :
    readRequest none i = (.ok (.binary, req), rest) ↔ ∃ m, i = m ++ rest ∧ IsBinary m req := by
  cases i with
  | nil =>
    constructor
    · intro h; simp [readRequest, protoOf, detect, Rd.bind_apply] at h
    · rintro ⟨m, he, hm⟩
      have h0 : m = [] := (List.append_eq_nil_iff.1 he.symm).1
      exact absurd h0 (isRequest_ne_nil (q := .binary) hm)
  | cons b i =>
    rw [readRequest_none, readRequest_iff]
    constructor
    · rintro ⟨hp, m, he, hm⟩
      rw [← hp] at hm
      exact ⟨m, he, hm⟩
    · rintro ⟨m, he, hm⟩
      have hb : b = 0x80 := by
        obtain ⟨op, k, x, u, l, u', body, rfl, _⟩ := hm
        simp only [binHeader, List.cons_append, List.cons.injEq] at he
        exact he.1
      subst hb
      exact ⟨rfl, m, he, hm⟩

/-- C65, C66: the grammar is unambiguous: a stream begins with at most one request. -/
theorem unambiguous {q : Protocol} {m m' r r' : Bytes} {req req' : Request} (h : IsRequest q m req)
    (h' : IsRequest q m' req') (he : m ++ r = m' ++ r') : m = m' ∧ req = req' ∧ r = r' := by
  have h1 : readRequest (some q) (m ++ r) = (.ok (q, req), r) := readRequest_iff.2 ⟨rfl, m, rfl, h⟩
  have h2 : readRequest (some q) (m ++ r) = (.ok (q, req'), r') := readRequest_iff.2 ⟨rfl, m', he, h'⟩
  rw [h1] at h2
  simp only [Prod.mk.injEq, Res.ok.injEq, true_and] at h2
  obtain ⟨rfl, rfl⟩ := h2
  exact ⟨List.append_cancel_right he, rfl, rfl⟩

/-- C65: a stream begins with at most one text request. -/
theorem C65_unambiguous {m m' r r' : Bytes} {req req' : Request} (h : IsText m req) (h' : IsText m' req')
    (he : m ++ r = m' ++ r') : m = m' ∧ req = req' ∧ r = r' := unambiguous (q := .ascii) h h' he

/-- C66: a stream begins with at most one binary request. -/
theorem C66_unambiguous {m m' r r' : Bytes} {req req' : Request} (h : IsBinary m req) (h' : IsBinary m' req')
    (he : m ++ r = m' ++ r') : m = m' ∧ req = req' ∧ r = r' := unambiguous (q := .binary) h h' he

/-- What reading makes of a stream that begins with no request. -/
theorem readRequest_none_of {q : Protocol} {i : Bytes} (h : NoRequest q i) :
    (CrashReq q i ∧ ∃ r, readRequest (some q) i = (.panic, r))
      ∨ (¬ CrashReq q i ∧ ∃ e r, readRequest (some q) i = (.err e, r)) := by
  cases hr : readRequest (some q) i with
  | mk x r =>
    cases x with
    | ok a =>
      obtain ⟨p, req⟩ := a
      obtain ⟨rfl, m, he, hm⟩ := readRequest_iff.1 hr
      exact absurd hm (h m r req he)
    | err e =>
      refine .inr ⟨fun hc => ?_, e, r, rfl⟩
      obtain ⟨r', h'⟩ := (C38_parse q i).2 hc
      rw [hr] at h'
      cases h'
    | panic => exact .inl ⟨(C38_parse q i).1 ⟨r, hr⟩, r, rfl⟩

theorem stream {q : Protocol} (i : Bytes) :
    ∃ m rest reqs, i = m ++ rest ∧ Requests q m reqs ∧ NoRequest q rest := by
  induction hn : i.length using Nat.strongRecOn generalizing i with
  | ind n ih =>
    by_cases hi : NoRequest q i
    · exact ⟨[], i, [], rfl, .nil, hi⟩
    · unfold NoRequest at hi
      simp only [Classical.not_forall, Classical.not_not] at hi
      obtain ⟨m, rest, req, he, hm⟩ := hi
      subst he
      have hpos : 0 < m.length := List.length_pos_iff.2 (isRequest_ne_nil hm)
      obtain ⟨m', rest', reqs, rfl, hms, hno⟩ := ih rest.length (by rw [← hn]; simp; omega) rest rfl
      exact ⟨m ++ m', rest', req :: reqs, by simp, .cons hm hms, hno⟩

theorem parseAll_append {q : Protocol} {m rest : Bytes} {reqs : List Request} (h : Requests q m reqs) :
    parseAll q (m ++ rest) = ⟨reqs ++ (parseAll q rest).reqs, (parseAll q rest).tail⟩ := by
  induction h with
  | nil => rfl
  | @cons m n r rs hm _ ih =>
    rw [parseAll_eq, readRequest_iff.2 ⟨rfl, m, List.append_assoc m n rest, hm⟩]
    dsimp only
    rw [ih]
    rfl

theorem parseAll_rest {q : Protocol} {rest : Bytes} (h : NoRequest q rest) :
    ((parseAll q rest).reqs = []) ∧ ((parseAll q rest).tail = .crashed ↔ CrashReq q rest)
      ∧ ((parseAll q rest).tail = .closed ↔ ¬ CrashReq q rest) := by
  rw [parseAll_eq]
  rcases readRequest_none_of h with ⟨hc, r, hr⟩ | ⟨hc, e, r, hr⟩
  · rw [hr]
    dsimp only
    simp [hc]
  · rw [hr]
    dsimp only
    simp [hc]

theorem served {q : Protocol} {m rest : Bytes} {reqs : List Request} (hm : Requests q m reqs) (hno : NoRequest q rest)
    (h : Handler σ) (s : σ)
    (ha : ∀ s r, ∃ res s', h s r = (.ok res, s') ∧ ∃ b, writeResponse q r res = .ok b) :
    (serve h (some q) s (m ++ rest)).handled = reqs
      ∧ ((serve h (some q) s (m ++ rest)).fin = .crashed ↔ CrashReq q rest)
      ∧ ((serve h (some q) s (m ++ rest)).fin = .closed ↔ ¬ CrashReq q rest) := by
  obtain ⟨p1, p2, p3⟩ := parseAll_rest hno
  obtain ⟨q1, q2⟩ := C36_complete h q s (m ++ rest) ha
  rw [q1, q2, parseAll_append hm, p1, List.append_nil]
  exact ⟨rfl, p2, p3⟩

/-- C65: every stream is some text requests followed by something that begins with none ... -/
theorem C65_split (i : Bytes) :
    ∃ m rest reqs, i = m ++ rest ∧ Requests .ascii m reqs ∧ NoRequest .ascii rest := stream i

/-- C65: ... and a handler that answers every request is called with exactly these requests, in this order; then the
connection is closed, or the server crashes, according to what follows (C38). -/
theorem C65_stream {m rest : Bytes} {reqs : List Request} (hm : Requests .ascii m reqs) (hno : NoRequest .ascii rest)
    (h : Handler σ) (s : σ)
    (ha : ∀ s r, ∃ res s', h s r = (.ok res, s') ∧ ∃ b, writeResponse .ascii r res = .ok b) :
    (serve h (some .ascii) s (m ++ rest)).handled = reqs
      ∧ ((serve h (some .ascii) s (m ++ rest)).fin = .crashed ↔ CrashReq .ascii rest)
      ∧ ((serve h (some .ascii) s (m ++ rest)).fin = .closed ↔ ¬ CrashReq .ascii rest) := served hm hno h s ha

/-- C66: every stream is some binary requests followed by something that begins with none ... -/
theorem C66_split (i : Bytes) :
    ∃ m rest reqs, i = m ++ rest ∧ Requests .binary m reqs ∧ NoRequest .binary rest := stream i

/-- C66: ... and a handler that answers every request is called with exactly these requests, in this order; then the
connection is closed, or the server crashes, according to what follows (C38). -/
theorem C66_stream {m rest : Bytes} {reqs : List Request} (hm : Requests .binary m reqs)
    (hno : NoRequest .binary rest) (h : Handler σ) (s : σ)
    (ha : ∀ s r, ∃ res s', h s r = (.ok res, s') ∧ ∃ b, writeResponse .binary r res = .ok b) :
    (serve h (some .binary) s (m ++ rest)).handled = reqs
      ∧ ((serve h (some .binary) s (m ++ rest)).fin = .crashed ↔ CrashReq .binary rest)
      ∧ ((serve h (some .binary) s (m ++ rest)).fin = .closed ↔ ¬ CrashReq .binary rest) := served hm hno h s ha

/-- What begins with no request and does not crash the server closes the connection: no handler call, no answer. -/
theorem refused {q : Protocol} {i : Bytes} (h : NoRequest q i) (hc : ¬ CrashReq q i) (hd : Handler σ) (s : σ) :
    serve hd (some q) s i = ⟨[], [], s, .closed⟩ := by
  rw [serve_eq]
  rcases readRequest_none_of h with ⟨hc', _⟩ | ⟨_, e, r, hr⟩
  · exact absurd hc' hc
  · rw [hr]

/-! ### Text requests that are refused -/

/-- The words of a line are determined, and so is the line a stream begins with. -/
theorem line_unique {l l' r r' : Bytes} {ws ws' : List Bytes} (h : TextLine l ws) (h' : TextLine l' ws')
    (he : l ++ r = l' ++ r') : l = l' ∧ ws = ws' ∧ r = r' := by
  obtain ⟨h1, rfl⟩ := textLine_iff.1 h
  obtain ⟨h2, rfl⟩ := textLine_iff.1 h'
  have e1 : readBytes (l ++ r) = (.ok l, r) := readBytes_iff.2 ⟨rfl, h1⟩
  have e2 : readBytes (l ++ r) = (.ok l', r') := readBytes_iff.2 ⟨he, h2⟩
  rw [e1] at e2
  simp only [Prod.mk.injEq, Res.ok.injEq] at e2
  obtain ⟨rfl, rfl⟩ := e2
  exact ⟨rfl, rfl, rfl⟩

theorem textRequest_shape {cmd : Bytes} {args : List Bytes} {data : Bytes} {req : Request}
    (h : TextRequest (cmd :: args) data req) : cmd ∈ textCommands ∧ Arity cmd args.length := by
  generalize hw : cmd :: args = w at h
  cases h with
  | get => cases hw; exact ⟨by decide, by unfold Arity; simp⟩
  | gets => cases hw; exact ⟨by decide, by unfold Arity; simp⟩
  | store hc =>
    cases hw
    simp only [List.mem_cons, Prod.mk.injEq, List.not_mem_nil, or_false] at hc
    rcases hc with ⟨rfl, _⟩ | ⟨rfl, _⟩ | ⟨rfl, _⟩ <;> exact ⟨by decide, by unfold Arity; simp⟩
  | delete => cases hw; exact ⟨by decide, by unfold Arity; simp⟩
  | md => cases hw; exact ⟨by decide, by unfold Arity; simp⟩
  | arith hc =>
    cases hw
    simp only [List.mem_cons, Prod.mk.injEq, List.not_mem_nil, or_false] at hc
    rcases hc with ⟨rfl, _⟩ | ⟨rfl, _⟩ | ⟨rfl, _⟩ <;> exact ⟨by decide, by unfold Arity; simp⟩
  | mg => cases hw; exact ⟨by decide, by unfold Arity; simp⟩
  | ms => cases hw; exact ⟨by decide, by unfold Arity; simp⟩
  | flush => cases hw; exact ⟨by decide, by unfold Arity; simp⟩
  | version => cases hw; exact ⟨by decide, by unfold Arity; simp⟩

theorem crashText_shape {cmd : Bytes} {args : List Bytes} {r : Bytes} (h : CrashText (cmd :: args) r) :
    cmd ∈ textCommands ∧ Arity cmd args.length := by
  generalize hw : cmd :: args = w at h
  cases h with
  | store hc =>
    cases hw
    rcases hc with rfl | rfl | rfl <;> exact ⟨by decide, by unfold Arity; simp⟩
  | msEmpty => cases hw; exact ⟨by decide, by unfold Arity; simp⟩
  | msLen => cases hw; exact ⟨by decide, by unfold Arity; simp⟩

/-- C65: a line whose command the server does not know (`cas`, `append`, `prepend`, `quit`, `stats`, `mn`, … — anything
but the fourteen it knows), or that has the wrong number of words (so every `noreply` form, `get` of several keys,
`delete` with a time), closes the connection at once: no handler call, no `ERROR`, and the requests behind it are lost. -/
theorem C65_refused {line rest cmd : Bytes} {args : List Bytes} (hl : TextLine line (cmd :: args))
    (hbad : cmd ∉ textCommands ∨ ¬ Arity cmd args.length) (h : Handler σ) (s : σ) :
    serve h (some .ascii) s (line ++ rest) = ⟨[], [], s, .closed⟩ := by
  have no : ¬ (cmd ∈ textCommands ∧ Arity cmd args.length) := by
    rintro ⟨h1, h2⟩
    rcases hbad with h | h
    · exact h h1
    · exact h h2
  refine refused ?_ ?_ h s
  · rintro m rest' req he ⟨l, ws, data, rfl, hl', ht⟩
    rw [List.append_assoc] at he
    obtain ⟨rfl, rfl, _⟩ := line_unique hl hl' he
    exact no (textRequest_shape ht)
  · rintro ⟨ws, r, ⟨l, he, hl1, rfl⟩, hc⟩
    obtain ⟨rfl, hws, rfl⟩ := line_unique hl (textLine_iff.2 ⟨hl1, rfl⟩) he
    rw [← hws] at hc
    exact no (crashText_shape hc)

theorem textLine_crlf (ws : List Bytes) (hne : ws ≠ []) (h : ∀ w ∈ ws, Plain w) : TextLine (joinSp ws ++ crlf) ws := by
  refine ⟨hne, fun w hw => (h w hw).1, .inl ⟨?_, rfl⟩⟩
  intro hm
  rcases mem_joinSp hm with h0 | ⟨k, hk, hk'⟩
  · exact absurd h0 (by decide)
  · exact (h k hk).2 hk'

/-- C65: what this module's own clients send for a Set with a token over the text protocol, and at the end of a
GetMulti over the meta protocol, is refused. -/
theorem C65_own_refused (key : Bytes) (hk : Plain key) (f n : Nat) (e : Int) (c : Nat) (rest : Bytes) (h : Handler σ) (s : σ) :
    serve h (some .ascii) s (joinSp [b!"cas", key, natDec f, intDec e, natDec n, natDec c] ++ crlf ++ rest)
        = ⟨[], [], s, .closed⟩
    ∧ serve h (some .ascii) s (b!"mn\r\n" ++ rest) = ⟨[], [], s, .closed⟩ := by
  constructor
  · refine C65_refused (textLine_crlf _ (by simp) ?_) (.inl (by decide)) h s
    simp only [List.forall_mem_cons]
    exact ⟨by decide, hk, natDec_plain _, intDec_plain _, natDec_plain _, natDec_plain _, by simp⟩
  · exact C65_refused (textLine_crlf [b!"mn"] (by simp) (by decide)) (.inl (by decide)) h s

/-- C65: `noreply` after any storage command, `get` of two keys and `delete` with a second word are refused. -/
theorem C65_noreply {cmd : Bytes} (hc : cmd ∈ [b!"set", b!"add", b!"replace"]) (key x y n rest : Bytes)
    (hk : Plain key) (hx : Plain x) (hy : Plain y) (hn : Plain n) (h : Handler σ) (s : σ) :
    serve h (some .ascii) s (joinSp [cmd, key, x, y, n, b!"noreply"] ++ crlf ++ rest) = ⟨[], [], s, .closed⟩
    ∧ serve h (some .ascii) s (joinSp [b!"get", key, x] ++ crlf ++ rest) = ⟨[], [], s, .closed⟩
    ∧ serve h (some .ascii) s (joinSp [b!"delete", key, b!"noreply"] ++ crlf ++ rest) = ⟨[], [], s, .closed⟩ := by
  have hcp : Plain cmd ∧ ¬ Arity cmd 5 := by
    simp only [List.mem_cons, List.not_mem_nil, or_false] at hc
    rcases hc with rfl | rfl | rfl <;> exact ⟨by decide, by unfold Arity; simp⟩
  refine ⟨?_, ?_, ?_⟩
  · refine C65_refused (textLine_crlf _ (by simp) ?_) (.inr hcp.2) h s
    simp only [List.forall_mem_cons]
    exact ⟨hcp.1, hk, hx, hy, hn, by decide, by simp⟩
  · refine C65_refused (textLine_crlf _ (by simp) ?_) (.inr (by unfold Arity; simp)) h s
    simp only [List.forall_mem_cons]
    exact ⟨by decide, hk, hx, by simp⟩
  · refine C65_refused (textLine_crlf _ (by simp) ?_) (.inr (by unfold Arity; simp)) h s
    simp only [List.forall_mem_cons]
    exact ⟨by decide, hk, by decide, by simp⟩

/-- C65: a line that ends in LF alone is accepted, and the LF becomes part of the key. -/
theorem C65_bare_lf (key rest : Bytes) (hk : Plain key) (hcr : key.getLast? ≠ some 13) :
    readRequest (some .ascii) (b!"get " ++ key ++ 10 :: rest)
      = (.ok (.ascii, { opcode := opGet, key := key ++ [10] }), rest) := by
  rw [C65_text]
  refine ⟨b!"get " ++ key ++ [10], by simp, b!"get " ++ key ++ [10], [b!"get", key ++ [10]], [], by simp, ?_, .get⟩
  refine ⟨by simp, ?_, .inr ⟨b!"get " ++ key, ?_, ?_, by simp [joinSp], by simp [joinSp]⟩⟩
  · simp only [List.forall_mem_cons]
    exact ⟨by decide, by simp [hk.1], by simp⟩
  · simp [hk.2]
  · cases key with
    | nil => decide
    | cons c k =>
      rw [List.getLast?_append]
      cases hl : (c :: k).getLast? with
      | none => simp at hl
      | some y => rw [hl] at hcr; simpa using hcr

/-! ### Binary requests -/

theorem binRequest_op {op : UInt8} {k x b : Nat} {body : Bytes} {req : Request} (h : BinRequest op k x b body req) :
    op ∈ binaryOpcodes := by
  cases h with
  | store h => rcases h with rfl | rfl | rfl <;> decide
  | arith h => rcases h with rfl | rfl <;> decide
  | bare h => rcases h with rfl | rfl | rfl <;> decide
  | _ => decide

theorem crashBin_op {op : UInt8} {x k b m : Nat} (h : CrashBin op.toNat x k b m) : op ∈ binaryOpcodes := by
  have inj : ∀ m : UInt8, op.toNat = m.toNat → op = m := fun m h => UInt8.toNat_inj.1 h
  cases h with
  | storeExtras h =>
    rcases h with h | h | h
    · rw [inj 1 h]; decide
    · rw [inj 2 h]; decide
    · rw [inj 3 h]; decide
  | storeBody h =>
    rcases h with h | h | h
    · rw [inj 1 h]; decide
    · rw [inj 2 h]; decide
    · rw [inj 3 h]; decide
  | arith h =>
    rcases h with h | h
    · rw [inj 5 h]; decide
    · rw [inj 6 h]; decide
  | touch h => rw [inj 28 h]; decide

/-- C66: the opcode of a request is one of the twelve the server knows; any other (quit, getq, getk, append,
prepend, all quiet forms but getkq, gat, …) closes the connection: no handler call, no answer. -/
theorem C66_refused {op : UInt8} (hop : op ∉ binaryOpcodes) {k b : Nat} {x : UInt8} {u u' : Bytes} (hk : k < 2 ^ 16)
    (hu : u.length = 3) (hb : b < 2 ^ 32) (hu' : u'.length = 12) (rest : Bytes) (h : Handler σ) (s : σ) :
    serve h (some .binary) s (binHeader op k x u b u' ++ rest) = ⟨[], [], s, .closed⟩ := by
  obtain ⟨e0, e1, e2, e3, e4⟩ := binHeader_fields op k x u b u' hu hk hb
  have hl := binHeader_length op k x u b u' hu hu'
  refine refused ?_ ?_ h s
  · rintro m rest' req he ⟨op', k', x', v, b', v', body, rfl, hk', hv, hb', hv', hr⟩
    obtain ⟨_, e1', _⟩ := binHeader_fields op' k' x' v b' v' hv hk' hb'
    have hl' := binHeader_length op' k' x' v b' v' hv hv'
    rw [List.append_assoc] at he
    have := (List.append_inj he (by rw [hl, hl'])).1
    rw [this] at e1
    rw [e1] at e1'
    rw [e1'] at hop
    exact hop (binRequest_op hr)
  · rintro ⟨h', r, he, hl', _, hc⟩
    have := (List.append_inj he (by rw [hl, hl'])).1
    rw [← this, e1] at hc
    exact hop (crashBin_op hc)

/-- C66: the data type, the virtual bucket, the opaque value and the CAS token of a request make no difference: the
handler cannot see them.  In particular a conditional Set arrives as an unconditional one. -/
theorem C66_ignored {op : UInt8} {k b : Nat} {x : UInt8} {u u' v v' : Bytes} (hk : k < 2 ^ 16) (hb : b < 2 ^ 32)
    (hu : u.length = 3) (hu' : u'.length = 12) (hv : v.length = 3) (hv' : v'.length = 12) (rest : Bytes)
    (h : Handler σ) (s : σ) :
    serve h (some .binary) s (binHeader op k x u b u' ++ rest) = serve h (some .binary) s (binHeader op k x v b v' ++ rest) := by
  have key : ∀ {u u' : Bytes}, u.length = 3 → u'.length = 12 →
      readBinary (binHeader op k x u b u' ++ rest) = binSwitch op k x.toNat b rest := by
    intro u u' hu hu'
    obtain ⟨hm, e1, e2, e3, e4⟩ := binHeader_fields op k x u b u' hu hk hb
    unfold readBinary
    rw [Rd.bind_of_ok (readFull_append' 24 _ rest (binHeader_length op k x u b u' hu hu')),
      if_neg (by simpa using hm), binaryRequest_eq, e1, e2, e3, e4]
  have e : readRequest (some .binary) (binHeader op k x u b u' ++ rest)
      = readRequest (some .binary) (binHeader op k x v b v' ++ rest) := by
    unfold readRequest
    refine (Rd.bind_of_ok (a := Protocol.binary) (r := binHeader op k x u b u' ++ rest) rfl).trans ?_
    refine Eq.trans ?_ (Rd.bind_of_ok (a := Protocol.binary) (r := binHeader op k x v b v' ++ rest) rfl).symm
    show (readBinary >>= _) _ = (readBinary >>= _) _
    rw [Rd.bind_apply, Rd.bind_apply, key hu hu', key hv hv']
  rw [serve_eq, serve_eq, e]

/-- C66: a flush, no-op or version request is its header alone: a body, such as the four bytes of delay a flush may
carry, is taken for the beginning of the next request. -/
theorem C66_body_unread {op : UInt8} (hop : op = 8 ∨ op = 10 ∨ op = 11) {k b : Nat} {x : UInt8} {u u' : Bytes}
    (hk : k < 2 ^ 16) (hb : b < 2 ^ 32) (hu : u.length = 3) (hu' : u'.length = 12) (body : Bytes) :
    readRequest (some .binary) (binHeader op k x u b u' ++ body) = (.ok (.binary, { opcode := op }), body) := by
  rw [C66_binary]
  exact ⟨_, rfl, op, k, x, u, b, u', [], by simp, hk, hu, hb, hu', .bare hop⟩

/-- C66: a get or delete request is read up to the end of its key, whatever total length it announces: what is left of
the body is taken for the beginning of the next request. -/
theorem C66_length_ignored {op : UInt8} (hop : op = 0 ∨ op = 4) (key : Bytes) {b : Nat} {x : UInt8} {u u' : Bytes}
    (hk : key.length < 2 ^ 16) (hb : b < 2 ^ 32) (hu : u.length = 3) (hu' : u'.length = 12) (more : Bytes) :
    readRequest (some .binary) (binHeader op key.length x u b u' ++ (key ++ more))
      = (.ok (.binary, { opcode := op, key := key }), more) := by
  rw [C66_binary]
  refine ⟨binHeader op key.length x u b u' ++ key, by simp, op, key.length, x, u, b, u', key, rfl, hk, hu, hb, hu', ?_⟩
  rcases hop with rfl | rfl
  · exact .get
  · exact .delete

/-! ### The hypotheses are met -/

/-- Three requests of a foreign client, an empty word among the keys, an explicit sign and a line with LF only. -/
theorem C65_concrete :
    (serve (σ := Unit) (fun s _ => (.ok [{}], s)) none ()
      b!"gets a  b\r\nset k +7 -1 2\r\nhi\r\nflush_all 10 noreply\r\nget k\nget a b\r\nversion\r\n")
      = ⟨[{ opcode := opGet, keys := some [b!"a", [], b!"b"] },
          { opcode := opSet, key := b!"k", flags := some [0, 0, 0, 7], value := b!"hi", setOpt := some { expiration := -1 } },
          { opcode := opFlush }, { opcode := opGet, key := b!"k\n" }],
         b!"VALUE  0 0\r\n\r\nEND\r\nSTORED\r\nOK\r\nVALUE  0 0\r\n\r\nEND\r\n", (), .closed⟩ := by
  decide +kernel

/-- A delayed flush and a get behind it: the flush is handled, the get is lost. -/
theorem C66_concrete :
    (serve (σ := Unit) (fun s _ => (.ok [{}], s)) none ()
      (binHeader 8 0 4 [0, 0, 0] 4 [0, 0, 0, 0, 0, 0, 0, 0, 0, 0, 0, 0] ++ [0, 0, 0, 60]
        ++ binHeader 0 1 0 [0, 0, 0] 1 [0, 0, 0, 0, 0, 0, 0, 0, 0, 0, 0, 0] ++ b!"k")).handled
      = [{ opcode := opFlush }]
    ∧ (serve (σ := Unit) (fun s _ => (.ok [{}], s)) none ()
      (binHeader 1 1 8 [0, 0, 0] 11 [0, 0, 0, 1, 0, 0, 0, 0, 0, 0, 0, 9] ++ [0, 0, 0, 7, 0, 0, 0, 60] ++ b!"kvv"
        ++ binHeader 9 1 0 [0, 0, 0] 1 [0, 0, 0, 0, 0, 0, 0, 0, 0, 0, 0, 0] ++ b!"k")).handled
      = [{ opcode := opSet, key := b!"k", flags := some [0, 0, 0, 7], value := b!"vv", setOpt := some { expiration := 60 } }] := by
  decide +kernel

end Props
end Verif
