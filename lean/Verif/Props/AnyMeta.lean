import Verif.Spec.MetaWire
import Verif.Props.MetaRequests
import Verif.Server.Serve
/-!
C63: meta requests of any client (not only this module's) on this module's server.
-/

namespace Verif
namespace Props
open Srv Spec

theorem joinSp_cons (w : Bytes) (ws : List Bytes) : joinSp (w :: ws) = w ++ ws.flatMap (fun x => 32 :: x) := by
  induction ws generalizing w with
  | nil => simp [joinSp]
  | cons x xs ih =>
    rw [joinSp, ih x]
    · simp
    · simp

theorem mgLine_words (key flags : Bytes) (more : List Bytes) :
    mgLine key flags more = joinSp (b!"mg" :: key :: flags :: more) ++ crlf := by
  rw [joinSp_cons]
  simp [mgLine]

/-- Which options are on after some letters. -/
theorem mgFlag_fold (w : Bytes) (o : GetOpt) :
    let p := w.foldl mgFlag o
    p.metaCmd = o.metaCmd ∧ p.requestFlag = o.requestFlag ∧ p.opaq = o.opaq
    ∧ (p.cas = true ↔ o.cas = true ∨ 99 ∈ w) ∧ (p.flag = true ↔ o.flag = true ∨ 102 ∈ w)
    ∧ (p.hit = true ↔ o.hit = true ∨ 104 ∈ w) ∧ (p.key = true ↔ o.key = true ∨ 107 ∈ w)
    ∧ (p.lastAccess = true ↔ o.lastAccess = true ∨ 108 ∈ w)
    ∧ (p.withOpaque = true ↔ o.withOpaque = true ∨ 111 ∈ w)
    ∧ (p.noReply = true ↔ o.noReply = true ∨ 113 ∈ w) ∧ (p.size = true ↔ o.size = true ∨ 115 ∈ w)
    ∧ (p.ttl = true ↔ o.ttl = true ∨ 116 ∈ w) ∧ (p.value = true ↔ o.value = true ∨ 118 ∈ w) := by
  induction w generalizing o with
  | nil => simp
  | cons c w ih =>
    have h := ih (mgFlag o c)
    simp only [List.foldl_cons, List.mem_cons]
    dsimp only at h ⊢
    obtain ⟨h1, h2, h3, h4, h5, h6, h7, h8, h9, h10, h11, h12, h13⟩ := h
    rw [h1, h2, h3, h4, h5, h6, h7, h8, h9, h10, h11, h12, h13]
    unfold mgFlag
    by_cases e1 : c = 99
    · subst e1; simp
    rw [if_neg e1]
    by_cases e2 : c = 102
    · subst e2; simp
    rw [if_neg e2]
    by_cases e3 : c = 104
    · subst e3; simp
    rw [if_neg e3]
    by_cases e4 : c = 107
    · subst e4; simp
    rw [if_neg e4]
    by_cases e5 : c = 108
    · subst e5; simp
    rw [if_neg e5]
    by_cases e6 : c = 111
    · subst e6; simp
    rw [if_neg e6]
    by_cases e7 : c = 113
    · subst e7; simp
    rw [if_neg e7]
    by_cases e8 : c = 115
    · subst e8; simp
    rw [if_neg e8]
    by_cases e9 : c = 116
    · subst e9; simp
    rw [if_neg e9]
    by_cases e10 : c = 118
    · subst e10; simp
    rw [if_neg e10]
    simp [Ne.symm e1, Ne.symm e2, Ne.symm e3, Ne.symm e4, Ne.symm e5, Ne.symm e6, Ne.symm e7, Ne.symm e8,
      Ne.symm e9, Ne.symm e10]

theorem mgOptions (w : Bytes) : MgOptions w (w.foldl mgFlag { metaCmd := true, requestFlag := w }) := by
  have h := mgFlag_fold w { metaCmd := true, requestFlag := w }
  dsimp only at h
  obtain ⟨h1, h2, h3, h4, h5, h6, h7, h8, h9, h10, h11, h12, h13⟩ := h
  constructor <;> simp [*, Has]

/-- C63: an `mg` of any client is read as a get of its key with the options its flag word names —
all letters of the first word after the key, none of the words behind it — and reading stops
at the end of the line. -/
theorem C63_mg (key word : Bytes) (more : List Bytes) (hk : Plain key) (hw : Plain word)
    (hm : ∀ x ∈ more, Plain x) :
    ∃ o, MgOptions word o ∧ ∀ q, q = none ∨ q = some .ascii → ∀ rest,
      readRequest q (mgLine key word more ++ rest)
        = (.ok (.ascii, { opcode := opGet, key := key, getOpt := some o }), rest) := by
  refine ⟨_, mgOptions word, fun q hq rest => ?_⟩
  have h := readAscii_words (b!"mg" :: key :: word :: more) rest (by simp) (by
    simp only [List.forall_mem_cons]
    exact ⟨by decide, hk, hw, hm⟩)
  have e : mgLine key word more ++ rest = 109 :: (103 :: 32 :: (key ++ 32 :: word
      ++ more.flatMap (fun w => 32 :: w) ++ crlf ++ rest)) := by simp [mgLine]
  rw [e]
  refine readRequest_ascii _ _ (by decide) q hq ?_
  rw [← e, mgLine_words, List.append_assoc]
  exact h

/-- C63: flags written as separate words, the way memcached's own documentation writes them, are
ignored from the second on: the server cannot tell such a request from one with the first
flag alone. -/
theorem C63_mg_later_ignored (key word : Bytes) (more : List Bytes) (hk : Plain key) (hw : Plain word)
    (hm : ∀ x ∈ more, Plain x) (q : Option Protocol) (hq : q = none ∨ q = some .ascii) (rest : Bytes) :
    readRequest q (mgLine key word more ++ rest) = readRequest q (mgLine key word [] ++ rest) := by
  obtain ⟨o, ho, h⟩ := C63_mg key word more hk hw hm
  obtain ⟨o', ho', h'⟩ := C63_mg key word [] hk hw (by simp)
  rw [h q hq rest, h' q hq rest]
  have : o = o' := by
    have hb : ∀ {a b : Bool} {p : Prop}, (a = true ↔ p) → (b = true ↔ p) → a = b := by
      intro a b p h1 h2
      cases a <;> cases b <;> simp_all
    cases o with
    | mk a1 a2 a3 a4 a5 a6 a7 a8 a9 a10 a11 a12 a13 =>
      cases o' with
      | mk b1 b2 b3 b4 b5 b6 b7 b8 b9 b10 b11 b12 b13 =>
        have e1 := ho.metaCmd.trans ho'.metaCmd.symm
        have e2 := ho.word.trans ho'.word.symm
        have e3 := hb ho.cas ho'.cas
        have e4 := hb ho.flag ho'.flag
        have e5 := hb ho.key ho'.key
        have e6 := hb ho.lastAccess ho'.lastAccess
        have e7 := hb ho.hit ho'.hit
        have e8 := hb ho.noReply ho'.noReply
        have e9 := hb ho.size ho'.size
        have e10 := hb ho.ttl ho'.ttl
        have e11 := hb ho.withOpaque ho'.withOpaque
        have e12 := ho.opaq.trans ho'.opaq.symm
        have e13 := hb ho.value ho'.value
        dsimp only at e1 e2 e3 e4 e5 e6 e7 e8 e9 e10 e11 e12 e13
        subst e1 e2 e3 e4 e5 e6 e7 e8 e9 e10 e11 e12 e13
        rfl
  rw [this]

/-- C63: `mg <key>` without a flag word, which memcached accepts, is refused. -/
theorem C63_mg_bare (key : Bytes) (hk : Plain key) (rest : Bytes) :
    readRequest (some .ascii) (b!"mg " ++ key ++ crlf ++ rest) = (.err (.msg b!"server: invalid request"), rest) := by
  have h := readAscii_words [b!"mg", key] rest (by simp) (by
    simp only [List.forall_mem_cons]
    exact ⟨by decide, hk, by simp⟩)
  have e : b!"mg " ++ key ++ crlf ++ rest = joinSp [b!"mg", key] ++ 13 :: 10 :: rest := by simp [joinSp, crlf]
  have h1 : readAscii (b!"mg " ++ key ++ crlf ++ rest) = (.err errInvalidRequest, rest) := by
    rw [e, h]; rfl
  unfold readRequest
  refine (Rd.bind_of_ok (a := Protocol.ascii) (r := b!"mg " ++ key ++ crlf ++ rest) rfl).trans ?_
  show (readAscii >>= _) _ = _
  rw [Rd.bind_apply, h1]
  rfl

/-! ### `ms` -/

theorem msLine_words (key : Bytes) (n : Nat) (toks : List MsTok) :
    msLine key n toks = joinSp (b!"ms" :: key :: natDec n :: toks.map MsTok.text) ++ crlf := by
  rw [joinSp_cons]
  simp [msLine, List.flatMap_map]

theorem fits_plain {t : MsTok} (h : t.Fits) : Plain t.text := by
  cases t with
  | cas n => exact plain_append (by decide) (natDec_plain _)
  | flags n => exact plain_append (by decide) (intDec_plain _)
  | invalidate a => exact plain_append (by decide) h
  | key a => exact plain_append (by decide) h
  | opaq n => exact plain_append (by decide) (intDec_plain _)
  | quiet a => exact plain_append (by decide) h
  | size n => exact plain_append (by decide) (intDec_plain _)
  | ttl n => exact plain_append (by decide) (intDec_plain _)
  | other w => exact h.1

/-- What one token changes. -/
def msStep (o : SetOpt) : MsTok → SetOpt
  | .cas n => { o with cas := true, casValue := n }
  | .flags n => { o with flag := n }
  | .invalidate _ => { o with invalidate := true }
  | .key _ => { o with key := true }
  | .opaq n => { o with opaq := n }
  | .quiet _ => { o with noReply := true }
  | .size n => { o with size := n }
  | .ttl n => { o with expiration := n }
  | .other _ => o

theorem msToken_text (o : SetOpt) (t : MsTok) (h : t.Fits) : msToken o t.text = .ok (msStep o t) := by
  cases t with
  | cas n => exact msToken_C o n h
  | flags n => simp [MsTok.text, msToken, parseInt_intDec n 32 h, numRes, msStep]
  | invalidate a => simp [MsTok.text, msToken, msStep]
  | key a => simp [MsTok.text, msToken, msStep]
  | opaq n => simp [MsTok.text, msToken, parseInt_intDec n 64 h, numRes, msStep]
  | quiet a => simp [MsTok.text, msToken, msStep]
  | size n => simp [MsTok.text, msToken, parseInt_intDec n 32 h, numRes, msStep]
  | ttl n => exact msToken_T o n h
  | other w =>
    obtain ⟨_, hne, hc⟩ := h
    cases w with
    | nil => exact absurd rfl hne
    | cons c t =>
      simp only [List.head?_cons, ne_eq, Option.some.injEq] at hc
      have h1 := hc 67 (by decide)
      have h2 := hc 70 (by decide)
      have h3 := hc 73 (by decide)
      have h4 := hc 107 (by decide)
      have h5 := hc 79 (by decide)
      have h6 := hc 113 (by decide)
      have h7 := hc 83 (by decide)
      have h8 := hc 84 (by decide)
      simp [MsTok.text, msToken, msStep, h1, h2, h3, h4, h5, h6, h7, h8]

theorem msTokens_texts (toks : List MsTok) (o : SetOpt) (h : ∀ t ∈ toks, t.Fits) :
    msTokens o (toks.map MsTok.text) = .ok (toks.foldl msStep o) := by
  induction toks generalizing o with
  | nil => rfl
  | cons t ts ih =>
    simp only [List.map_cons, msTokens, List.foldl_cons]
    rw [msToken_text o t (h t (by simp))]
    exact ih _ (fun x hx => h x (by simp [hx]))

theorem lastOf_cons {α : Type} (f : MsTok → Option α) (d : α) (t : MsTok) (ts : List MsTok) :
    lastOf f d (t :: ts) = lastOf f ((f t).getD d) ts := by
  unfold lastOf
  cases h : f t with
  | none => simp [h]
  | some a =>
    rw [List.filterMap_cons_some h]
    cases hl : ts.filterMap f with
    | nil => simp
    | cons x xs => simp [List.getLast?_cons]

theorem msStep_fold (toks : List MsTok) (o : SetOpt) :
    let p := toks.foldl msStep o
    p.metaCmd = o.metaCmd ∧ (p.cas = true ↔ o.cas = true ∨ ∃ c, .cas c ∈ toks)
    ∧ p.casValue = lastOf MsTok.cas? o.casValue toks ∧ p.flag = lastOf MsTok.flags? o.flag toks
    ∧ (p.invalidate = true ↔ o.invalidate = true ∨ ∃ a, .invalidate a ∈ toks)
    ∧ (p.key = true ↔ o.key = true ∨ ∃ a, .key a ∈ toks)
    ∧ p.opaq = lastOf MsTok.opaq? o.opaq toks
    ∧ (p.noReply = true ↔ o.noReply = true ∨ ∃ a, .quiet a ∈ toks)
    ∧ p.size = lastOf MsTok.size? o.size toks ∧ p.expiration = lastOf MsTok.ttl? o.expiration toks := by
  induction toks generalizing o with
  | nil => simp [lastOf]
  | cons t ts ih =>
    have h := ih (msStep o t)
    simp only [List.foldl_cons, List.mem_cons, lastOf_cons]
    dsimp only at h ⊢
    obtain ⟨h1, h2, h3, h4, h5, h6, h7, h8, h9, h10⟩ := h
    rw [h1, h2, h3, h4, h5, h6, h7, h8, h9, h10]
    cases t <;> simp [msStep, MsTok.cas?, MsTok.flags?, MsTok.opaq?, MsTok.size?, MsTok.ttl?]

theorem msOptions (n : Nat) (toks : List MsTok) :
    MsOptions n toks (toks.foldl msStep { metaCmd := true, size := (n : Int) }) := by
  have h := msStep_fold toks { metaCmd := true, size := (n : Int) }
  dsimp only at h
  obtain ⟨h1, h2, h3, h4, h5, h6, h7, h8, h9, h10⟩ := h
  constructor <;> simp [*]

/-- C63: an `ms` of any client, with any tokens whose numbers fit, is read as a set of its key with
the options its tokens name; the value is as many bytes as the size in force (the last `S` token,
or else the announced size), of whatever follows the line, and two more bytes are skipped whatever they
are. -/
theorem C63_ms (key : Bytes) (n : Nat) (toks : List MsTok) (hk : Plain key) (hn : n < 2 ^ 32)
    (ht : ∀ t ∈ toks, t.Fits) :
    ∃ o, MsOptions n toks o ∧ ∀ q, q = none ∨ q = some .ascii → ∀ value : Bytes, ∀ a b : UInt8, ∀ rest,
      (value.length : Int) = o.size →
      readRequest q (msLine key n toks ++ (value ++ a :: b :: rest))
        = (.ok (.ascii, { opcode := opSet, key := key, value := value, setOpt := some o }), rest) := by
  refine ⟨_, msOptions n toks, fun q hq value a b rest hv => ?_⟩
  have hlen : value.length < 2 ^ 32 := by
    have h1 := (msOptions n toks).size
    rw [← hv] at h1
    unfold lastOf at h1
    cases hl : (toks.filterMap MsTok.size?).getLast? with
    | none => rw [hl] at h1; simp only [Option.getD_none] at h1; omega
    | some z =>
      rw [hl] at h1
      simp only [Option.getD_some] at h1
      have hz := List.mem_of_getLast? hl
      rw [List.mem_filterMap] at hz
      obtain ⟨t, htm, htz⟩ := hz
      cases t with
      | size m =>
        have hm := ht _ htm
        have hmz : m = z := by simpa [MsTok.size?] using htz
        subst hmz
        have h2 : m < (2 ^ 31 : Nat) := hm.2
        omega
      | _ => simp [MsTok.size?] at htz
  have h := readAscii_words (b!"ms" :: key :: natDec n :: toks.map MsTok.text) (value ++ a :: b :: rest) (by simp) (by
    simp only [List.forall_mem_cons]
    refine ⟨by decide, hk, natDec_plain _, ?_⟩
    intro w hw
    rw [List.mem_map] at hw
    obtain ⟨t, htm, rfl⟩ := hw
    exact fits_plain (ht t htm))
  have e : msLine key n toks ++ (value ++ a :: b :: rest) = 109 :: (115 :: 32 :: (key ++ 32 :: natDec n
      ++ toks.flatMap (fun t => 32 :: t.text) ++ crlf ++ (value ++ a :: b :: rest))) := by simp [msLine]
  rw [e]
  refine readRequest_ascii _ _ (by decide) q hq ?_
  rw [← e, msLine_words, List.append_assoc]
  refine h.trans ?_
  show readMs (b!"ms" :: key :: natDec n :: toks.map MsTok.text) _ = _
  rw [readMs_cons, parseUint_natDec _ 32 hn]
  refine (Rd.bind_of_ok (Rd.lift_apply _ _)).trans ?_
  rw [msTokens_texts toks _ ht]
  refine (Rd.bind_of_ok (Rd.lift_apply _ _)).trans ?_
  generalize toks.foldl msStep _ = opt at hv ⊢
  have h4 : readN (opt.size + 2) (value ++ a :: b :: rest) = (.ok (value ++ [a, b]), rest) := by
    have := readN_append ((value.length : Int) + 2) (value ++ [a, b]) rest (by simp)
      (by have := le_maxAlloc' hlen; simpa using this)
    rw [← hv]; simpa using this
  refine (Rd.bind_of_ok h4).trans ?_
  rw [← hv, sliceTo_append]
  rfl

/-! ### Replies -/

/-- C63: the reply to an `mg` that finds one item: the line with the size, the flag word as it was
sent and the fields it names, then the value if `v` was among the letters, then an end of line.
`q` makes no difference.  The response's flags are absent or four bytes at least. -/
theorem C63_mg_reply (key word : Bytes) (o : GetOpt) (ho : MgOptions word o) (r : Response)
    (hf : r.flags = [] ∨ 4 ≤ r.flags.length) :
    writeResponse .ascii { opcode := opGet, key := key, getOpt := some o } [r]
      = .ok (vaLine key word r (getBE (r.flags.take 4)) ++ (if Has word 'v' then r.value else []) ++ crlf) := by
  have hfl : respFlags r.flags = .ok (getBE (r.flags.take 4)) := by
    unfold respFlags
    rcases hf with h | h
    · rw [h]; rfl
    · rw [if_pos (by omega)]
      simp [beUint, h]
  have hv : o.value = decide (Has word 'v') := by
    have := ho.value
    cases hov : o.value <;> simp_all
  have htok : word.flatMap (metaGetTok { opcode := opGet, key := key, getOpt := some o } r (getBE (r.flags.take 4)))
      = word.flatMap (mgField key r (getBE (r.flags.take 4))) := by
    congr 1
    funext c
    simp [metaGetTok, mgField]
  show (writeAll (writeAsciiMetaGet _ o) [r] >>= _) = _
  simp only [writeAll, writeAsciiMetaGet, hfl, Res.bind_ok, ho.word, htok, hv, vaLine]
  simp

/-- C63: an `mg` that finds nothing is answered `EN`, with `q` too. -/
theorem C63_mg_miss (key : Bytes) (o : GetOpt) :
    writeResponse .ascii { opcode := opGet, key := key, getOpt := some o } [] = .ok b!"EN\r\n" := rfl

/-- C63: without `v` the reply announces the size of the value as if the value followed, but after
the line comes only an end of line. -/
theorem C63_mg_without_v (key word : Bytes) (o : GetOpt) (ho : MgOptions word o) (hv : ¬ Has word 'v')
    (r : Response) (hf : r.flags = [] ∨ 4 ≤ r.flags.length) :
    ∃ fields, writeResponse .ascii { opcode := opGet, key := key, getOpt := some o } [r]
      = .ok (b!"VA " ++ natDec r.value.length ++ 32 :: word ++ fields ++ crlf ++ crlf) := by
  rw [C63_mg_reply key word o ho r hf, if_neg hv]
  exact ⟨_, by simp [vaLine]; rfl⟩

/-- C63: an `ms` whose handler reports no error is answered `HD`, whatever its tokens, `q` among
them or not; one whose handler reports an error is not answered at all. -/
theorem C63_ms_reply (key value : Bytes) (n : Nat) (toks : List MsTok) (o : SetOpt) (ho : MsOptions n toks o)
    (r : Response) (rs : List Response) :
    writeResponse .ascii { opcode := opSet, key := key, value := value, setOpt := some o } (r :: rs)
      = .ok (if r.error = none then b!"HD\r\n" else []) := by
  unfold writeResponse writeAscii
  dsimp only
  rw [if_neg (show ¬ opSet = opGet by decide), if_pos (Or.inl rfl)]
  simp only [onFirst, ho.metaCmd]
  split <;> rfl

/-! ### The hypotheses are met -/

/-- A request with all options as one word, one with two words, and a quiet one. -/
theorem C63_mg_concrete :
    readRequest none b!"mg key vfct\r\nrest"
      = (.ok (.ascii, { opcode := opGet, key := b!"key", getOpt := some { metaCmd := true, requestFlag := b!"vfct", value := true, flag := true, cas := true, ttl := true } }),
          b!"rest")
    ∧ readRequest none b!"mg key q v\r\nrest"
      = (.ok (.ascii, { opcode := opGet, key := b!"key", getOpt := some { metaCmd := true, requestFlag := b!"q", noReply := true } }), b!"rest") := by
  decide +kernel

/-- The replies to such requests: all fields; the size of a value that does not follow; a quiet miss. -/
theorem C63_reply_concrete :
    serve (σ := Unit) (fun s q => (.ok (if q.key = b!"no" then [] else
        [{ key := b!"key", value := b!"abc", flags := [0, 0, 0, 7], cas := 9, ttl := 60 }]), s)) none ()
      b!"mg key vfkct\r\nmg key k v\r\nmg no q\r\n"
      = ⟨[{ opcode := opGet, key := b!"key", getOpt := some { metaCmd := true, requestFlag := b!"vfkct", value := true, flag := true, key := true, cas := true, ttl := true } },
          { opcode := opGet, key := b!"key", getOpt := some { metaCmd := true, requestFlag := b!"k", key := true } },
          { opcode := opGet, key := b!"no", getOpt := some { metaCmd := true, requestFlag := b!"q", noReply := true } }],
         b!"VA 3 vfkct 7 key 9 60\r\nabc\r\nVA 3 k key\r\n\r\nEN\r\n", (), .closed⟩ := by
  decide +kernel

/-- An `S` token smaller than the value: the rest of the value is the next request.  -/
theorem C63_ms_concrete :
    (serve (σ := Unit) (fun s _ => (.ok [{}], s)) none ()
      b!"ms k 13 T5 S0 q T60\r\n\r\nflush_all\r\n\r\n").handled
      = [{ opcode := opSet, key := b!"k", setOpt := some { metaCmd := true, noReply := true, size := 0, expiration := 60 } },
         { opcode := opFlush }] := by
  decide +kernel

end Props
end Verif
