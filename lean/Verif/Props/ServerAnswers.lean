import Verif.Props.ServerPanics
/-!
C38 (continued): crashes of a serving connection.  C39: what the server writes for an error
response.
-/

namespace Verif
namespace Spec
open Srv

/-- A request that some bytes of a connection with protocol `q` denote. -/
def Readable (q : Protocol) (req : Request) : Prop := ∃ i r, readRequest (some q) i = (.ok (q, req), r)

/-- A list of responses the server can write as the answer to a request: at least one response
unless the request is a Get; and over the text protocol the flags of an item are absent or at
least four bytes. -/
def FitReply (q : Protocol) (req : Request) (res : List Response) : Prop :=
  (req.opcode ≠ opGet → res ≠ [])
  ∧ (q = .ascii → req.opcode = opGet → ∀ r ∈ res, r.flags = [] ∨ 4 ≤ r.flags.length)

/-- From stream `i` the requests `reqs` are read, leaving `j`. -/
inductive ReadsTo (q : Protocol) : Bytes → List Request → Bytes → Prop
  | nil (i : Bytes) : ReadsTo q i [] i
  | cons {i j k : Bytes} {req : Request} {reqs : List Request}
      (h : readRequest (some q) i = (.ok (q, req), j)) (t : ReadsTo q j reqs k) :
      ReadsTo q i (req :: reqs) k

/-- A handler that answers every request with a list of responses the server can write. -/
def GoodHandler {σ : Type} (q : Protocol) (h : Handler σ) : Prop :=
  ∀ s req, Readable q req → ∃ res s', h s req = (.ok res, s') ∧ FitReply q req res

/-- Commands of the text protocol the server knows. -/
def StoreOp (o : UInt8) : Prop := o = opSet ∨ o = opAdd ∨ o = opReplace

end Spec

namespace Props
open Srv Spec

/-- What a reader returns satisfies `P`. -/
def Post {α : Type} (P : α → Prop) (m : Rd α) : Prop := ∀ i a r, m i = (.ok a, r) → P a

theorem post_pure {α : Type} {P : α → Prop} {a : α} (h : P a) : Post P (pure a : Rd α) := by
  intro i b r hb
  simp only [Rd.pure_apply, Prod.mk.injEq, Res.ok.injEq] at hb
  exact hb.1 ▸ h
theorem post_fail {α : Type} {P : α → Prop} {e : Err} : Post P (Rd.fail e : Rd α) := by
  intro i b r hb; simp at hb
theorem post_bind {α β : Type} {P : β → Prop} {m : Rd α} {f : α → Rd β} (h : ∀ a, Post P (f a)) : Post P (m >>= f) := by
  intro i b r hb
  rw [Rd.bind_apply] at hb
  cases hm : m i with
  | mk x j =>
    rw [hm] at hb
    cases x with
    | ok a => exact h a j b r hb
    | err e => simp at hb
    | panic => simp at hb
theorem post_ite {α : Type} {P : α → Prop} {c : Prop} [Decidable c] {a b : Rd α} (ha : Post P a) (hb : Post P b) :
    Post P (if c then a else b) := by split <;> assumption

/-- The shape of text requests. -/
def AsciiReq (req : Request) : Prop :=
  req.opcode = opGet ∨ (StoreOp req.opcode ∧ ∃ o, req.setOpt = some o)
  ∨ (req.opcode = opDelete ∧ ∃ o, req.delOpt = some o)
  ∨ req.opcode = opIncrement ∨ req.opcode = opDecrement ∨ req.opcode = opTouch ∨ req.opcode = opFlush
  ∨ req.opcode = opVersion

/-- The shape of binary requests. -/
def BinaryReq (req : Request) : Prop :=
  req.opcode = opGet ∨ StoreOp req.opcode ∨ req.opcode = opDelete
  ∨ req.opcode = opIncrement ∨ req.opcode = opDecrement ∨ req.opcode = opVersion ∨ req.opcode = opFlush
  ∨ req.opcode = opTouch ∨ req.opcode = opNoop

theorem post_store (op : UInt8) (h : StoreOp op) (w : List Bytes) : Post AsciiReq (readStore op w) := by
  unfold readStore
  split
  · exact post_bind fun _ => post_bind fun _ => post_bind fun _ => post_bind fun _ => post_bind fun _ =>
      post_pure (.inr (.inl ⟨h, _, rfl⟩))
  · exact post_fail
theorem post_delete (m : Bool) (w : List Bytes) : Post AsciiReq (readDelete m w) := by
  unfold readDelete
  split
  · exact post_pure (.inr (.inr (.inl ⟨rfl, _, rfl⟩)))
  · exact post_fail
theorem post_delta (op : UInt8) (h : op = opIncrement ∨ op = opDecrement ∨ op = opTouch) (w : List Bytes) :
    Post AsciiReq (readDelta op w) := by
  unfold readDelta
  split
  · refine post_bind fun _ => post_pure (.inr (.inr (.inr ?_)))
    rcases h with h | h | h
    · exact .inl h
    · exact .inr (.inl h)
    · exact .inr (.inr (.inl h))
  · exact post_fail
theorem post_mg (w : List Bytes) : Post AsciiReq (readMg w) := by
  unfold readMg
  split
  · exact post_pure (.inl rfl)
  · exact post_fail
theorem post_ms (w : List Bytes) : Post AsciiReq (readMs w) := by
  unfold readMs
  split
  · exact post_bind fun _ => post_bind fun _ => post_bind fun _ => post_bind fun _ =>
      post_pure (.inr (.inl ⟨.inl rfl, _, rfl⟩))
  · exact post_fail

theorem post_ascii (w : List Bytes) : Post AsciiReq (asciiRequest w) := by
  cases w with
  | nil => exact post_fail
  | cons cmd args =>
    have hget : ∀ args : List Bytes, Post AsciiReq (match args with
        | [key] => pure { opcode := opGet, key := key }
        | _ => Rd.fail errInvalidRequest) := by
      intro args
      split
      · exact post_pure (.inl rfl)
      · exact post_fail
    exact post_ite (hget args) (post_ite (post_pure (.inl rfl))
      (post_ite (post_store _ (.inl rfl) _) (post_ite (post_store _ (.inr (.inl rfl)) _)
      (post_ite (post_store _ (.inr (.inr rfl)) _) (post_ite (post_delete _ _) (post_ite (post_delete _ _)
      (post_ite (post_delta _ (.inl rfl) _) (post_ite (post_delta _ (.inr (.inl rfl)) _)
      (post_ite (post_delta _ (.inr (.inr rfl)) _) (post_ite (post_mg _) (post_ite (post_ms _)
      (post_ite (post_pure (by simp [AsciiReq])) (post_ite (post_pure (by simp [AsciiReq])) post_fail)))))))))))))

theorem post_binary (h : Bytes) : Post BinaryReq (binaryRequest h) := by
  unfold binaryRequest
  refine post_ite (post_bind fun _ => post_pure (by simp [BinaryReq])) ?_
  refine post_ite (post_bind fun _ => post_pure (by simp [BinaryReq])) ?_
  split
  · rename_i ho
    exact post_bind fun _ => post_bind fun _ => post_bind fun _ => post_bind fun _ => post_bind fun _ =>
      post_pure (.inr (.inl ho))
  refine post_ite (post_bind fun _ => post_pure (by simp [BinaryReq])) ?_
  split
  · rename_i ho
    refine post_bind fun _ => post_bind fun _ => post_bind fun _ => post_bind fun _ => post_pure ?_
    show BinaryReq { opcode := h.getD 1 0, .. }
    rcases ho with ho | ho <;> rw [ho] <;> simp [BinaryReq]
  refine post_ite (post_bind fun _ => post_bind fun _ => post_bind fun _ => post_pure (by simp [BinaryReq])) ?_
  split
  · rename_i ho
    refine post_pure ?_
    show BinaryReq { opcode := h.getD 1 0, .. }
    rcases ho with ho | ho | ho <;> rw [ho] <;> simp [BinaryReq]
  · exact post_fail

theorem readable_shape {q : Protocol} {req : Request} (h : Readable q req) :
    match q with
    | .ascii => AsciiReq req
    | .binary => BinaryReq req := by
  obtain ⟨i, r, h⟩ := h
  unfold readRequest at h
  rw [Rd.bind_of_ok (show protoOf (some q) i = (.ok q, i) from rfl), Rd.bind_apply] at h
  cases hb : readBody q i with
  | mk x j =>
    rw [hb] at h
    cases x with
    | err e => simp at h
    | panic => simp at h
    | ok a =>
      simp only [Rd.pure_apply, Prod.mk.injEq, Res.ok.injEq, true_and] at h
      obtain ⟨rfl, rfl⟩ := h
      cases q with
      | ascii => exact post_bind (m := readBytes) (fun _ => post_ascii _) _ _ _ hb
      | binary => exact post_bind (m := readFull 24) (fun _ => post_ite post_fail (post_binary _)) _ _ _ hb

/-! ### Writing -/

theorem writeAll_panic (f : Response → Res Bytes) (hf : ∀ r e, f r ≠ .err e) (res : List Response) :
    (writeAll f res = .panic ↔ ∃ r ∈ res, f r = .panic) ∧ ∀ e, writeAll f res ≠ .err e := by
  induction res with
  | nil => simp [writeAll]
  | cons r rs ih =>
    unfold writeAll
    cases h : f r with
    | err e => exact absurd h (hf r e)
    | panic => simp [h]
    | ok a =>
      cases h2 : writeAll f rs with
      | ok b => rw [h2] at ih; simpa [h] using ih
      | err e => exact absurd h2 (ih.2 e)
      | panic => rw [h2] at ih; simpa [h] using ih

theorem respFlags_panic (fl : Bytes) : (respFlags fl = .panic ↔ ¬ (fl = [] ∨ 4 ≤ fl.length)) ∧ ∀ e, respFlags fl ≠ .err e := by
  unfold respFlags beUint
  constructor
  · cases fl with
    | nil => simp
    | cons b fl =>
      simp only [List.length_cons, Nat.zero_lt_succ, if_true, reduceCtorEq, false_or]
      split <;> simp <;> omega
  · intro e
    split
    · split <;> simp
    · simp

theorem get1_panic (r : Response) :
    (writeAsciiGet r = .panic ↔ ¬ (r.flags = [] ∨ 4 ≤ r.flags.length)) ∧ ∀ e, writeAsciiGet r ≠ .err e := by
  have h := respFlags_panic r.flags
  unfold writeAsciiGet
  cases hf : respFlags r.flags with
  | ok a => rw [hf] at h; simpa using h.1
  | err e => exact absurd hf (h.2 e)
  | panic => rw [hf] at h; simpa using h.1

theorem mget1_panic (req : Request) (o : GetOpt) (r : Response) :
    (writeAsciiMetaGet req o r = .panic ↔ ¬ (r.flags = [] ∨ 4 ≤ r.flags.length)) ∧ ∀ e, writeAsciiMetaGet req o r ≠ .err e := by
  have h := respFlags_panic r.flags
  unfold writeAsciiMetaGet
  cases hf : respFlags r.flags with
  | ok a => rw [hf] at h; simpa using h.1
  | err e => exact absurd hf (h.2 e)
  | panic => rw [hf] at h; simpa using h.1

theorem onFirst_panic {res : List Response} {f : Response → Res Bytes} (hf : ∀ r, ∃ b, f r = .ok b) :
    (onFirst res f = .panic ↔ res = []) ∧ ∀ e, onFirst res f ≠ .err e := by
  unfold onFirst
  cases res with
  | nil => simp
  | cons r rs =>
    obtain ⟨b, hb⟩ := hf r
    dsimp only
    split <;> simp [hb]

theorem writeAscii_get (req : Request) (h : req.opcode = opGet) (res : List Response) :
    (writeAscii req res = .panic ↔ ¬ ∀ r ∈ res, r.flags = [] ∨ 4 ≤ r.flags.length)
      ∧ ∀ e, writeAscii req res ≠ .err e := by
  unfold writeAscii
  rw [if_pos h]
  have neg : (¬ ∀ r ∈ res, r.flags = [] ∨ 4 ≤ r.flags.length) ↔ ∃ r ∈ res, ¬ (r.flags = [] ∨ 4 ≤ r.flags.length) := by
    simp only [Classical.not_forall]
    constructor
    · rintro ⟨r, h1, h2⟩; exact ⟨r, h1, h2⟩
    · rintro ⟨r, h1, h2⟩; exact ⟨r, h1, h2⟩
  rw [neg]
  cases req.getOpt with
  | none =>
    have hw := writeAll_panic writeAsciiGet (fun r e => (get1_panic r).2 e) res
    have hw1 : (∃ r ∈ res, writeAsciiGet r = .panic) ↔ ∃ r ∈ res, ¬ (r.flags = [] ∨ 4 ≤ r.flags.length) :=
      exists_congr fun r => and_congr_right fun _ => (get1_panic r).1
    rw [hw1] at hw
    dsimp only
    cases h2 : writeAll writeAsciiGet res with
    | ok b => rw [h2] at hw; simpa using hw.1
    | err e => exact absurd h2 (hw.2 e)
    | panic => rw [h2] at hw; simpa using hw.1
  | some o =>
    have hw := writeAll_panic (writeAsciiMetaGet req o) (fun r e => (mget1_panic req o r).2 e) res
    have hw1 : (∃ r ∈ res, writeAsciiMetaGet req o r = .panic) ↔ ∃ r ∈ res, ¬ (r.flags = [] ∨ 4 ≤ r.flags.length) :=
      exists_congr fun r => and_congr_right fun _ => (mget1_panic req o r).1
    rw [hw1] at hw
    dsimp only
    cases h2 : writeAll (writeAsciiMetaGet req o) res with
    | ok b => rw [h2] at hw; simpa using hw.1
    | err e => exact absurd h2 (hw.2 e)
    | panic => rw [h2] at hw; simpa using hw.1

/-- Text requests other than Get: which bytes are written for a response without error. -/
def okBytes (req : Request) (r : Response) : Bytes :=
  if StoreOp' req.opcode then
    match req.setOpt with
    | some o => if o.metaCmd then b!"HD\r\n" else b!"STORED\r\n"
    | none => []
  else if req.opcode = opDelete then
    match req.delOpt with
    | some o => if o.metaCmd then b!"HD\r\n" else b!"DELETED\r\n"
    | none => []
  else if req.opcode = opTouch then b!"TOUCHED\r\n"
  else if req.opcode = opFlush then b!"OK\r\n"
  else r.value ++ b!"\r\n"
where StoreOp' (o : UInt8) : Bool := o = opSet || o = opAdd || o = opReplace

theorem writeAscii_other {req : Request} (h : AsciiReq req) (hg : req.opcode ≠ opGet) (res : List Response) :
    writeAscii req res = onFirst res fun r => .ok (okBytes req r) := by
  have key : ∀ f g : Response → Res Bytes, (∀ r, f r = g r) → onFirst res f = onFirst res g := by
    intro f g h; rw [show f = g from funext h]
  unfold writeAscii
  rw [if_neg hg]
  rcases h with h | ⟨h, o, ho⟩ | ⟨h, o, ho⟩ | h | h | h | h | h
  · exact absurd h hg
  · rw [if_pos (show req.opcode = opSet ∨ req.opcode = opAdd ∨ req.opcode = opReplace from h)]
    apply key
    intro r
    unfold okBytes okBytes.StoreOp'
    rcases h with h | h | h <;> rw [h, ho] <;> cases hm : o.metaCmd <;> simp [hm] <;> rfl
  · rw [h, if_neg (by decide), if_pos rfl]
    apply key
    intro r
    unfold okBytes okBytes.StoreOp'
    rw [h, ho]
    cases hm : o.metaCmd <;> simp [hm, opDelete, opSet, opAdd, opReplace] <;> rfl
  all_goals
    rw [h]
    apply key
    intro r
    unfold okBytes okBytes.StoreOp'
    rw [h]
    rfl

theorem writeBinary_other {req : Request} (h : BinaryReq req) (hg : req.opcode ≠ opGet) (res : List Response) :
    writeBinary req res = onFirst res fun r => .ok (writeBinary1 req.opcode r) := by
  unfold writeBinary
  rw [if_neg hg, if_pos]
  rcases h with h | (h | h | h) | h | h | h | h | h | h | h
  · exact absurd h hg
  all_goals simp [h]

/-- C38: answering a request that was read panics exactly when the handler returned no response
for a request that is not a Get, or (text, Get) flags of one to three bytes; and an answer is
never refused. -/
theorem C38_write (q : Protocol) (req : Request) (h : Readable q req) (res : List Response) :
    (writeResponse q req res = .panic ↔ ¬ FitReply q req res) ∧ ∀ e, writeResponse q req res ≠ .err e := by
  have hs := readable_shape h
  unfold FitReply writeResponse
  cases q with
  | ascii =>
    dsimp only at hs ⊢
    by_cases hg : req.opcode = opGet
    · have := writeAscii_get req hg res
      refine ⟨this.1.trans (not_congr ?_), this.2⟩
      constructor
      · intro h2; exact ⟨fun h => absurd hg h, fun _ _ => h2⟩
      · intro h2; exact h2.2 rfl hg
    · rw [writeAscii_other hs hg]
      have := onFirst_panic (res := res) (f := fun r => .ok (okBytes req r)) (fun r => ⟨_, rfl⟩)
      refine ⟨this.1.trans ?_, this.2⟩
      constructor
      · rintro h ⟨h1, _⟩; exact h1 hg h
      · intro h
        exact Classical.byContradiction fun h1 => h ⟨fun _ => h1, fun _ h2 => absurd h2 hg⟩
  | binary =>
    dsimp only at hs ⊢
    by_cases hg : req.opcode = opGet
    · unfold writeBinary
      rw [if_pos hg]
      simp [hg]
    · rw [writeBinary_other hs hg]
      have := onFirst_panic (res := res) (f := fun r => .ok (writeBinary1 req.opcode r)) (fun r => ⟨_, rfl⟩)
      refine ⟨this.1.trans ?_, this.2⟩
      constructor
      · rintro h ⟨h1, _⟩; exact h1 hg h
      · intro h
        exact Classical.byContradiction fun h1 => h ⟨fun _ => h1, fun h2 => absurd h2 (by simp)⟩

theorem parse_crash (q : Protocol) (i : Bytes) :
    (parseAll q i).tail = .crashed ↔ ∃ reqs j, ReadsTo q i reqs j ∧ CrashReq q j := by
  induction hn : i.length using Nat.strongRecOn generalizing i with
  | ind n ih =>
    rw [parseAll_eq]
    cases hr : readRequest (some q) i with
    | mk x r =>
      cases x with
      | err e =>
        simp only [reduceCtorEq, false_iff]
        rintro ⟨reqs, j, ht, hc⟩
        cases ht with
        | nil =>
          obtain ⟨r', h'⟩ := (C38_parse q i).2 hc
          rw [hr] at h'; simp at h'
        | cons h => rw [hr] at h; simp at h
      | panic =>
        simp only [true_iff]
        exact ⟨[], i, .nil i, (C38_parse q i).1 ⟨r, hr⟩⟩
      | ok pr =>
        obtain ⟨p, req⟩ := pr
        have hp := readRequest_proto hr
        subst hp
        have hlt := readRequest_lt hr
        dsimp only
        rw [ih r.length (by omega) r rfl]
        constructor
        · rintro ⟨reqs, j, ht, hc⟩
          exact ⟨req :: reqs, j, .cons hr ht, hc⟩
        · rintro ⟨reqs, j, ht, hc⟩
          cases ht with
          | nil =>
            obtain ⟨r', h'⟩ := (C38_parse p i).2 hc
            rw [hr] at h'; simp at h'
          | cons h t =>
            rw [hr] at h
            simp only [Prod.mk.injEq, Res.ok.injEq, true_and] at h
            obtain ⟨rfl, rfl⟩ := h
            exact ⟨_, j, t, hc⟩

theorem parse_readable (q : Protocol) (i : Bytes) : ∀ req ∈ (parseAll q i).reqs, Readable q req := by
  induction hn : i.length using Nat.strongRecOn generalizing i with
  | ind n ih =>
    rw [parseAll_eq]
    cases hr : readRequest (some q) i with
    | mk x r =>
      cases x with
      | err e => simp
      | panic => simp
      | ok pr =>
        obtain ⟨p, req⟩ := pr
        have hp := readRequest_proto hr
        subst hp
        have hlt := readRequest_lt hr
        dsimp only
        intro q hq
        rcases List.mem_cons.1 hq with rfl | hq
        · exact ⟨i, r, hr⟩
        · exact ih r.length (by omega) r rfl q hq

theorem answerAll_good {σ : Type} {h : Handler σ} {q : Protocol} (hg : GoodHandler q h) (s : σ) (reqs : List Request)
    (hr : ∀ req ∈ reqs, Readable q req) (e : End) :
    (answerAll h q s reqs e).fin = e ∧ (answerAll h q s reqs e).handled = reqs := by
  induction reqs generalizing s with
  | nil => exact ⟨rfl, rfl⟩
  | cons req reqs ih =>
    obtain ⟨res, s', hh, hf⟩ := hg s req (hr req (by simp))
    have hw := C38_write q req (hr req (by simp)) res
    have := ih s' (fun r h => hr r (by simp [h]))
    rw [answerAll_cons]
    unfold serveStep
    rw [hh]
    dsimp only
    cases hb : writeResponse q req res with
    | ok b => exact ⟨this.1, by simp [this.2]⟩
    | err e => exact absurd hb (hw.2 e)
    | panic => exact absurd hf (hw.1.1 hb)

/-- C38: with a handler that answers every request, exactly the streams that contain a crashing
request after well-formed ones take the server down ... -/
theorem C38_serve {σ : Type} {h : Handler σ} {q : Protocol} (hg : GoodHandler q h) (s : σ) (i : Bytes) :
    (serve h (some q) s i).fin = .crashed ↔ ∃ reqs j, ReadsTo q i reqs j ∧ CrashReq q j := by
  rw [C36_serve, (answerAll_good hg s _ (parse_readable q i) _).1]
  exact parse_crash q i

/-- C38: ... and no handler at all can prevent the crash when the first request is such a one. -/
theorem C38_first {σ : Type} (h : Handler σ) (q : Protocol) (s : σ) (i : Bytes) (hc : CrashReq q i) :
    (serve h (some q) s i).fin = .crashed := by
  obtain ⟨r, hr⟩ := (C38_parse q i).2 hc
  rw [serve_eq, hr]

/-- C38, a case: "set k 0 0 -2" takes the server down, whatever the handler. -/
theorem C38_case {σ : Type} (h : Handler σ) (s : σ) :
    (serve h none s b!"set k 0 0 -2\r\n").fin = .crashed := by
  rw [show (b!"set k 0 0 -2\r\n" : Bytes) = 115 :: b!"et k 0 0 -2\r\n" from rfl, C37_first_byte]
  refine C38_first h .ascii s _ ⟨[b!"set", b!"k", b!"0", b!"0", b!"-2"], [], ⟨b!"set k 0 0 -2\r\n", rfl, ⟨b!"set k 0 0 -2\r", rfl, by decide⟩, by decide⟩, ?_⟩
  exact .store (.inl rfl) (f := 0) (e := 0) (n := -2) (by decide) (by decide) (by decide) (.inl (by decide))

/-- C38, a case: the hypotheses of `C38_serve` are met by an echo-like handler. -/
theorem C38_handler_case (q : Protocol) : GoodHandler (σ := Unit) q (fun s _ => (.ok [{}], s)) :=
  fun s req _ => ⟨[{}], s, rfl, by simp, by simp⟩

/-! ### C39 -/

/-- C39: for every request but Get an error response makes the server write nothing at all ... -/
theorem C39_silent (q : Protocol) (req : Request) (h : Readable q req) (hg : req.opcode ≠ opGet) (r : Response)
    (rs : List Response) (he : r.error ≠ none) : writeResponse q req (r :: rs) = .ok [] := by
  have hs := readable_shape h
  unfold writeResponse
  cases q with
  | ascii => dsimp only at hs ⊢; rw [writeAscii_other hs hg]; simp [onFirst, he]
  | binary => dsimp only at hs ⊢; rw [writeBinary_other hs hg]; simp [onFirst, he]

/-- C39: ... and carries on with the next request as if it had been answered: the error is
visible neither in the bytes sent nor in the state of the connection. -/
theorem C39_carries_on {σ : Type} (h : Handler σ) (q : Protocol) (s s' : σ) (i j : Bytes) (req : Request)
    (hr : readRequest (some q) i = (.ok (q, req), j)) (hg : req.opcode ≠ opGet) (r : Response)
    (rs : List Response) (hh : h s req = (.ok (r :: rs), s')) (he : r.error ≠ none) :
    (serve h (some q) s i).out = (serve h (some q) s' j).out
      ∧ (serve h (some q) s i).fin = (serve h (some q) s' j).fin := by
  rw [serve_eq, hr]
  dsimp only
  unfold serveStep
  rw [hh]
  dsimp only
  rw [C39_silent q req ⟨i, j, hr⟩ hg r rs he]
  exact ⟨rfl, rfl⟩

/-- C39: for a Get the error is ignored: the bytes are those of the same response without it, so
an error response built as `&Response{Error: err}` is sent as a hit with empty key and value. -/
theorem C39_get (q : Protocol) (req : Request) (hg : req.opcode = opGet) (r : Response) (e : Option Err) :
    writeResponse q req [r] = writeResponse q req [{ r with error := e }] := by
  unfold writeResponse
  cases q with
  | ascii =>
    unfold writeAscii
    dsimp only
    rw [if_pos hg, if_pos hg]
    cases req.getOpt with
    | none => rfl
    | some o =>
      dsimp only
      rfl
  | binary =>
    unfold writeBinary
    dsimp only
    rw [if_pos hg, if_pos hg]
    rfl

/-- C39: what the answer to a failed Get looks like on the wire. -/
theorem C39_get_bytes (e : Err) (k : Bytes) (o : Option GetOpt) :
    writeResponse .ascii { opcode := opGet, key := k } [{ error := some e }] = .ok b!"VALUE  0 0\r\n\r\nEND\r\n"
    ∧ writeResponse .binary { opcode := opGet, key := k, getOpt := o } [{ error := some e }]
      = .ok ([0x81, 0, 0, 0, 0, 0, 0, 0] ++ List.replicate 16 0) := by
  constructor
  · show (writeAll _ _ >>= _) = _
    simp only [writeAll, writeAsciiGet, respFlags]
    have h0 : natDec 0 = b!"0" := by decide +kernel
    simp [h0, crlf]
  · show Res.ok _ = Res.ok _
    congr 1
    have h1 : writeBinary1 opGet { error := some e } = writeBinary1 opGet {} := rfl
    have h2 : writeBinary1 opGet {} = [0x81, 0, 0, 0, 0, 0, 0, 0] ++ List.replicate 16 0 := by decide +kernel
    show (writeBinary1 opGet { error := some e } ++ []) ++ [] = _
    rw [h1, h2]
    rfl

/-- C39, over a whole connection: a handler that fails every request. -/
theorem C39_case : serve (σ := Unit) (fun s _ => (.ok [{ error := some .itemNotFound }], s)) none ()
    b!"delete k\r\ntouch k 3\r\n" = ⟨[{ opcode := opDelete, key := b!"k", delOpt := some {} },
      { opcode := opTouch, key := b!"k", delta := 3 }], [], (), .closed⟩ := by
  decide +kernel

end Props
end Verif
