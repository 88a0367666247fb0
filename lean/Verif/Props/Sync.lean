import Verif.Props.Acks
import Verif.Props.History
import Verif.Props.MetaHistory
import Verif.Lemmas.BinReply
import Verif.Lemmas.ClientStable
/-!
C24: where the next operation starts reading.  C27: the counters returned by Increment/Decrement.
-/

namespace Verif
namespace Props
open Spec Kv Mc

/-- Whatever follows the reply on the connection, the operation leaves exactly that unread. -/
def InSync {α : Type} (c : Call α) (reply : Bytes) : Prop := ∀ rest, (c.rd (reply ++ rest)).2 = rest

/-! ### Single-line replies -/

theorem line_sync {α : Type} {c : Call α} {f : Bytes → Res α}
    (h : ∀ i, c.rd i = (readSlice >>= fun b => Rd.lift (f b)) i) {l : Bytes} (hl : Line l) (hn : l.length ≤ 4096) :
    InSync c l := by
  intro rest
  rw [h, Rd.bind_of_ok (readSlice_iff.2 ⟨rfl, hl, hn⟩)]
  rfl

/-- C24, text: whatever line the server answers, each operation consumes exactly that line. -/
theorem C24_text_lines (item : Item) (k : Bytes) (d e : Int) (l : Bytes) (hl : Line l) (hn : l.length ≤ 4096) :
    InSync (Text.set item) l ∧ InSync (Text.add item) l ∧ InSync (Text.replace item) l
      ∧ InSync (Text.delete k) l ∧ InSync (Text.increment k d e) l ∧ InSync (Text.decrement k d e) l
      ∧ InSync (Text.touch k e) l ∧ InSync Text.flush l ∧ InSync Text.version l :=
  ⟨line_sync (textSet_table item) hl hn, line_sync (textAdd_table item) hl hn,
    line_sync (textReplace_table item) hl hn, line_sync (textDelete_table k) hl hn,
    line_sync (textArith_table b!"incr" k d) hl hn, line_sync (textArith_table b!"decr" k d) hl hn,
    line_sync (textTouch_table k e) hl hn, line_sync textFlush_table hl hn, line_sync textVersion_table hl hn⟩

/-- C24, meta. -/
theorem C24_meta_lines (item : Item) (k : Bytes) (d e : Int) (l : Bytes) (hl : Line l) (hn : l.length ≤ 4096) :
    InSync (Meta.set item) l ∧ InSync (Meta.add item) l ∧ InSync (Meta.replace item) l
      ∧ InSync (Meta.delete k) l ∧ InSync (Meta.increment k d e) l ∧ InSync (Meta.decrement k d e) l
      ∧ InSync (Meta.touch k e) l ∧ InSync Meta.flush l ∧ InSync Meta.version l :=
  ⟨line_sync (metaSet_table item) hl hn, line_sync (metaAdd_table item) hl hn,
    line_sync (metaReplace_table item) hl hn, line_sync (metaDelete_table k) hl hn,
    line_sync (metaArith_table b!"incr" k d) hl hn, line_sync (metaArith_table b!"decr" k d) hl hn,
    line_sync (metaTouch_table k e) hl hn, line_sync metaFlush_table hl hn, line_sync metaVersion_table hl hn⟩

/-- C24, Get and GetMulti answered by a line that is not the beginning of a value, such as `END`,
`EN` or an error line. -/
theorem C24_get_lines (name k : Bytes) (ks : List Bytes) (l : Bytes) (hl : Line l) (hn : l.length ≤ 4096)
    (hv : ¬ b!"VALUE" <+: l) (hm : ¬ b!"VA" <+: l) :
    InSync (Text.get name k) l ∧ InSync (Text.getMulti name ks) l ∧ InSync (Meta.get k) l
      ∧ InSync (Meta.getMulti ks) l := by
  have hr : ∀ rest, readSlice (l ++ rest) = (.ok l, rest) := fun rest => readSlice_iff.2 ⟨rfl, hl, hn⟩
  have hv' : hasPrefix l b!"VALUE" = false := by
    rw [← Bool.not_eq_true]; exact fun h => hv (List.isPrefixOf_iff_prefix.1 h)
  have hm' : hasPrefix l b!"VA" = false := by
    rw [← Bool.not_eq_true]; exact fun h => hm (List.isPrefixOf_iff_prefix.1 h)
  have hp : ∀ rest, ∃ e, Meta.parseGetResponse (l ++ rest) = (.err e, rest) := by
    intro rest
    unfold Meta.parseGetResponse
    rw [Rd.bind_of_ok (hr rest)]
    simp only [Rd.ite_apply']
    split
    · exact ⟨_, rfl⟩
    · split
      · exact ⟨_, rfl⟩
      · first
          | exact ⟨_, rfl⟩
          | exact ⟨_, by rw [if_pos hm']; rfl⟩
  refine ⟨?_, ?_, ?_, ?_⟩ <;> intro rest
  · show (Text.getReply name _).2 = _
    unfold Text.getReply
    rw [Rd.bind_of_ok (hr rest), Rd.ite_apply', Rd.ite_apply', if_pos hv']
    split <;> rfl
  · show ((Text.parseGetResponse >>= _) _).2 = _
    have : ∃ x, Text.parseGetResponse (l ++ rest) = (x, rest) := by
      unfold Text.parseGetResponse
      unfold Text.parseLoop
      rw [Rd.bind_of_ok (hr rest), Rd.ite_apply']
      split
      · exact ⟨_, rfl⟩
      · have hb : (splitSp l).head? ≠ some b!"VALUE" := by
          intro h
          refine hv ?_
          have hj := joinSp_splitSp l
          cases hs : splitSp l with
          | nil => rw [hs] at h; simp at h
          | cons w ws =>
            rw [hs] at h hj
            simp only [List.head?_cons, Option.some.injEq] at h
            subst h
            rw [← hj]
            cases ws with
            | nil => exact ⟨[], by simp [joinSp]⟩
            | cons a b => exact ⟨_, by simp only [joinSp]; rfl⟩
        refine ⟨.err errInvalidResponse, ?_⟩
        have : Text.parseBlock l rest = (.err errInvalidResponse, rest) := by
          unfold Text.parseBlock
          dsimp only
          rw [Rd.ite_apply', if_pos hb]; rfl
        rw [Rd.bind_of_err this]
    obtain ⟨x, hx⟩ := this
    rw [Rd.bind_apply, hx]
    cases x <;> rfl
  · show ((Meta.parseGetResponse >>= _) _).2 = _
    obtain ⟨e, he⟩ := hp rest
    rw [Rd.bind_of_err he]
  · obtain ⟨e, he⟩ := hp rest
    show (Meta.multiLoop _ [] _).2 = _
    unfold Meta.multiLoop
    rw [he]
    cases e <;> rfl

/-- Non-vacuity: an error line of memcached. -/
example (rest : Bytes) : (Text.get b!"s" b!"k").rd (b!"SERVER_ERROR out of memory\r\n" ++ rest)
    = (.err errInvalidResponse, rest) := by
  have h := (C24_get_lines b!"s" b!"k" [] b!"SERVER_ERROR out of memory\r\n"
    ⟨b!"SERVER_ERROR out of memory\r", rfl, by decide⟩ (by decide) (by decide) (by decide)).1 rest
  rfl

/-! ### Binary -/

theorem hdr_ok {h : Bytes} (hh : BinHead h) (rest : Bytes) :
    Bin.readHdr (h ++ rest) = (.ok (Bin.ResHdr.ofBytes h), rest) := by
  unfold Bin.readHdr
  rw [Rd.bind_of_ok (readFull_append' 24 h rest hh.1), Rd.ite_apply', if_neg (by simp [hh.2])]
  rfl

theorem body_sync {α : Type} {h body rest : Bytes} (hb : body.length = bodyLenOf h) {f : Bytes → Rd α}
    (hf : ∀ r, (f body r).2 = r) :
    ((readFull (Bin.ResHdr.ofBytes h).totalBodyLength >>= f) (body ++ rest)).2 = rest := by
  rw [Rd.bind_of_ok (readFull_append' (Bin.ResHdr.ofBytes h).totalBodyLength body rest hb)]
  exact hf rest

/-- C24, binary operations that read the body: for every header, status and body (and the opcode that
was asked for) they leave the connection at the end of the reply. -/
theorem C24_binary_reads (hd : Bin.ReqHdr) (item : Item) (k : Bytes) (d e : Int) (h body : Bytes)
    (hh : BinHead h) (hb : body.length = bodyLenOf h) :
    InSync (Bin.get hd k) (h ++ body)
      ∧ (opcodeOf h = 3 → InSync (Bin.replace hd item) (h ++ body))
      ∧ (opcodeOf h = 4 → InSync (Bin.delete hd k) (h ++ body))
      ∧ (opcodeOf h = 5 → InSync (Bin.increment hd k d e) (h ++ body))
      ∧ (opcodeOf h = 6 → InSync (Bin.decrement hd k d e) (h ++ body)) := by
  have arith : ∀ op, opcodeOf h = op → InSync (Bin.incrOrDecr hd op k d e) (h ++ body) := by
    intro op ho rest
    rw [List.append_assoc]
    show ((Bin.readHdr >>= _) _).2 = _
    have ho' : (Bin.ResHdr.ofBytes h).opcode = op := ho
    rw [Rd.bind_of_ok (hdr_ok hh _), Rd.ite_apply', if_neg (by simp [ho'])]
    refine body_sync hb fun r => ?_
    rw [Rd.ite_apply']
    split
    · cases List.lookup (Bin.ResHdr.ofBytes h).status Bin.binaryStatus <;> rfl
    · rw [Rd.bind_apply]
      cases hq : beUint 8 body <;> rfl
  refine ⟨fun rest => ?_, fun ho rest => ?_, fun ho rest => ?_, arith 5, arith 6⟩ <;> rw [List.append_assoc]
  · show ((Bin.readHdr >>= _) _).2 = _
    rw [Rd.bind_of_ok (hdr_ok hh _)]
    refine body_sync hb fun r => ?_
    rw [Rd.ite_apply']
    split
    · rw [Rd.ite_apply']; split <;> rfl
    · rw [Rd.bind_apply]
      cases sliceFrom body (Bin.ResHdr.ofBytes h).valueStart with
      | err e => rfl
      | panic => rfl
      | ok v =>
        simp only [Rd.lift_apply]
        rw [Rd.bind_apply]
        cases sliceTo body ((Bin.ResHdr.ofBytes h).extraLength : Int) <;> rfl
  · show ((Bin.readHdr >>= _) _).2 = _
    have ho' : (Bin.ResHdr.ofBytes h).opcode = Bin.opReplace := ho
    rw [Rd.bind_of_ok (hdr_ok hh _), Rd.ite_apply', if_neg (by simp [ho'])]
    refine body_sync hb fun r => ?_
    rw [Rd.ite_apply']
    split
    · rw [Rd.ite_apply']; split <;> rfl
    · rfl
  · show ((Bin.readHdr >>= _) _).2 = _
    have ho' : (Bin.ResHdr.ofBytes h).opcode = Bin.opDelete := ho
    rw [Rd.bind_of_ok (hdr_ok hh _), Rd.ite_apply', if_neg (by simp [ho'])]
    refine body_sync hb fun r => ?_
    rw [Rd.ite_apply']
    split
    · rw [Rd.ite_apply']; split <;> rfl
    · rfl

/-- C24 refuted, binary operations that do not read the body: after `Set`, `Add`, `Touch`, `Flush` the
whole body of the reply is left in the connection, after `Version` and `GetMulti` that of a reply with
an error status. -/
theorem C24_binary_body_left (hd hd' : Bin.ReqHdr) (item : Item) (k : Bytes) (ks : List Bytes) (e : Int)
    (h body rest : Bytes) (hh : BinHead h) :
    ((Bin.set hd item).rd (h ++ body ++ rest)).2 = body ++ rest
      ∧ ((Bin.add hd item).rd (h ++ body ++ rest)).2 = body ++ rest
      ∧ ((Bin.touch hd k e).rd (h ++ body ++ rest)).2 = body ++ rest
      ∧ ((Bin.flush hd).rd (h ++ body ++ rest)).2 = body ++ rest
      ∧ (statusOf h ≠ 0 → ((Bin.version hd).rd (h ++ body ++ rest)).2 = body ++ rest)
      ∧ (statusOf h ≠ 0 → opcodeOf h ≠ 10 →
          ((Bin.getMulti hd hd' ks).rd (h ++ body ++ rest)).2 = body ++ rest) := by
  rw [List.append_assoc]
  refine ⟨?_, ?_, ?_, ?_, fun hs => ?_, fun hs ho => ?_⟩
  · show ((Bin.readHdr >>= _) _).2 = _
    rw [Rd.bind_of_ok (hdr_ok hh _)]
    simp only [Rd.ite_apply']
    split
    · rfl
    · split
      · split <;> rfl
      · rfl
  · show ((Bin.readHdr >>= _) _).2 = _
    rw [Rd.bind_of_ok (hdr_ok hh _)]
    simp only [Rd.ite_apply']
    split
    · rfl
    · split
      · split <;> rfl
      · rfl
  · show ((Bin.readHdr >>= _) _).2 = _
    rw [Rd.bind_of_ok (hdr_ok hh _)]
    simp only [Rd.ite_apply']
    split <;> rfl
  · show ((Bin.readHdr >>= _) _).2 = _
    rw [Rd.bind_of_ok (hdr_ok hh _)]
    simp only [Rd.ite_apply']
    split <;> rfl
  · show ((Bin.readHdr >>= _) _).2 = _
    rw [Rd.bind_of_ok (hdr_ok hh _), Rd.ite_apply']
    have hs' : (Bin.ResHdr.ofBytes h).status ≠ 0 := hs
    rw [if_pos hs']; rfl
  · show (Bin.multiLoop _ [] _).2 = _
    unfold Bin.multiLoop
    rw [Rd.bind_of_ok (hdr_ok hh _)]
    have hs' : (Bin.ResHdr.ofBytes h).status ≠ 0 := hs
    have ho' : (Bin.ResHdr.ofBytes h).opcode ≠ Bin.opNoop := ho
    simp only [Rd.ite_apply']
    rw [if_neg ho', if_pos hs']; rfl

/-- The consequence: when the body left behind (an error text) does not happen to start with 0x81, every
next binary operation fails with "invalid response", although the server answered it correctly. -/
theorem C24_next_fails (h1 h2 : Bin.ReqHdr) (op : Op) (body rest : Bytes) (hb : body ≠ [])
    (hm : body.head? ≠ some 0x81) (hl : 24 ≤ (body ++ rest).length) :
    ((binCall h1 h2 op).rd (body ++ rest)).1 = .err errInvalidResponse := by
  have hr : Bin.readHdr (body ++ rest) = (.err errInvalidResponse, (body ++ rest).drop 24) := by
    unfold Bin.readHdr
    have : readFull 24 (body ++ rest) = (.ok ((body ++ rest).take 24), (body ++ rest).drop 24) := by
      simp only [readFull]; rw [if_pos hl]
    rw [Rd.bind_of_ok this, Rd.ite_apply', if_pos]
    · rfl
    · cases body with
      | nil => exact absurd rfl hb
      | cons a b => simpa using hm
  have hg : ∀ {α : Type} (f : Bin.ResHdr → Rd α), ((Bin.readHdr >>= f) (body ++ rest)).1 = .err errInvalidResponse := by
    intro α f
    rw [Rd.bind_of_err hr]
  have hmap : ∀ {α : Type} (f : α → Out) (c : Call α), (c.rd (body ++ rest)).1 = .err errInvalidResponse →
      ((c.map f).rd (body ++ rest)).1 = .err errInvalidResponse := by
    intro α f c h
    show Res.map f _ = _
    rw [h]; rfl
  cases op <;> refine hmap _ _ ?_
  case getMulti ks =>
    show (Bin.multiLoop _ [] _).1 = _
    unfold Bin.multiLoop
    exact hg _
  all_goals exact hg _

/-- Non-vacuity: memcached's reply to a binary Set of a too large value (status 3, body "Too large."),
followed by the correct reply to a Get; the Get fails. -/
example :
    let tooLarge := rawRes 1 0 0 0 3 10 0 0 ++ b!"Too large."
    let hit := rawRes 0 0 4 0 0 7 0 9 ++ [0, 0, 0, 0] ++ b!"abc"
    (Bin.set {} { key := b!"k" }).rd (tooLarge ++ hit) = (.err (.msg b!"memcached: error value too large"), b!"Too large." ++ hit)
      ∧ ((Bin.get {} b!"k").rd (b!"Too large." ++ hit)).1 = .err errInvalidResponse := by
  decide +kernel

/-! ### C27 -/

theorem counterOf_padTo (len m : Nat) (h : m < 2 ^ 64) : counterOf (padTo len (natDec m)) = some m := by
  unfold counterOf padTo
  have hd := natDec_digits m
  have h1 : ∀ k, (natDec m ++ List.replicate k 32).takeWhile isDigit = natDec m := by
    intro k
    rw [List.takeWhile_append_of_pos hd]
    cases k <;> simp [List.replicate_succ, isDigit]
  have h2 : ∀ k, (natDec m ++ List.replicate k 32).dropWhile isDigit = List.replicate k 32 := by
    intro k
    rw [List.dropWhile_append_of_pos hd]
    cases k <;> simp [List.replicate_succ, isDigit]
  rw [h1, h2, parseUint_natDec m 64 h]
  simp

/-- C27, text and meta against memcached: for a stored counter `n` and a delta (not negative), the
counter is changed on the server, and the call returns the new counter if it is below 2^63 and an error
otherwise. -/
theorem C27_memcached (name k : Bytes) (hk : Key k) (delta exp : Int) (h0 : 0 ≤ delta) (h1 : InRange 64 delta)
    (up : Bool) (s : Store) (hs : GoodStore s) (hm : GoodMetaStore s) (e : Entry) (he : s.find k = some e) (n : Nat)
    (hn : counterOf e.value = some n) :
    let op := if up then Op.increment k delta exp else Op.decrement k delta exp
    let m := if up then (n + delta.toNat) % 2 ^ 64 else n - delta.toNat
    ∃ s', exchange (textCall name op) s = some (if m < 2 ^ 63 then .ok (.num m) else .err .num, s')
      ∧ exchange (metaCall op) s = some (if m < 2 ^ 63 then .ok (.num m) else .err .num, s')
      ∧ ∃ e', s'.find k = some e' ∧ counterOf e'.value = some m := by
  have hlt : count up n delta.toNat < 2 ^ 64 := count_lt up n _ (counterOf_lt hn)
  have harith : arithApi s up k delta
      = (if count up n delta.toNat < 2 ^ 63 then .ok (.num (count up n delta.toNat)) else .err .num,
         s.put k (padTo e.value.length (natDec (count up n delta.toNat))) e.flags e.expiry) := by
    unfold arithApi
    rw [if_neg (by omega)]
    simp only [Store.arith, he, hn, counted]
  have hlive : e.live s.now = true := by
    unfold Store.find at he
    split at he
    · split at he
      · simp only [Option.some.injEq] at he; subst he; assumption
      · simp at he
    · simp at he
  refine ⟨s.put k (padTo e.value.length (natDec (count up n delta.toNat))) e.flags e.expiry, ?_, ?_,
    ⟨padTo e.value.length (natDec (count up n delta.toNat)), e.flags, e.expiry, s.nextCas⟩, ?_, ?_⟩
  · cases up
    · exact (C52_text_call name _ (show GoodOp (Op.decrement k delta exp) from ⟨hk, h1⟩) s hs).trans
        (congrArg some harith)
    · exact (C52_text_call name _ (show GoodOp (Op.increment k delta exp) from ⟨hk, h1⟩) s hs).trans
        (congrArg some harith)
  · cases up
    · exact (C52_meta_call _ s hm (show GoodMetaOp s (Op.decrement k delta exp) from ⟨hk, h1⟩)).trans
        (congrArg some harith)
    · exact (C52_meta_call _ s hm (show GoodMetaOp s (Op.increment k delta exp) from ⟨hk, h1⟩)).trans
        (congrArg some harith)
  · have hl2 : Entry.live ⟨padTo e.value.length (natDec (count up n delta.toNat)), e.flags, e.expiry, s.nextCas⟩ s.now
        = true := hlive
    simp [Store.put, Store.write, Store.find, hl2]
  · exact counterOf_padTo _ _ hlt

/-- Non-vacuity: a counter just below 2^63. -/
example : counterOf b!"9223372036854775807" = some 9223372036854775807
    ∧ counterOf b!"10  " = some 10 := by decide +kernel

/-- C27, binary: the reply carries the counter as 64-bit number; the call returns it as a signed number. -/
theorem C27_binary (hd : Bin.ReqHdr) (op : UInt8) (k : Bytes) (delta exp : Int) (n : Nat) (hn : n < 2 ^ 64)
    (h : Bytes) (hh : BinHead h) (ho : opcodeOf h = op) (hs : statusOf h = 0) (hb : bodyLenOf h = 8) (rest : Bytes) :
    (Bin.incrOrDecr hd op k delta exp).rd (h ++ putBE 8 n ++ rest)
      = (.ok (if n < 2 ^ 63 then (n : Int) else n - 2 ^ 64), rest) := by
  have hb' : (Bin.ResHdr.ofBytes h).totalBodyLength = 8 := hb
  have ho' : (Bin.ResHdr.ofBytes h).opcode = op := ho
  have hs' : (Bin.ResHdr.ofBytes h).status = 0 := hs
  rw [List.append_assoc]
  show (Bin.readHdr >>= _) _ = _
  rw [Rd.bind_of_ok (hdr_ok hh _), Rd.ite_apply', if_neg (by simp [ho']), hb',
    Rd.bind_of_ok (readFull_append' 8 (putBE 8 n) rest (putBE_length 8 n)), Rd.ite_apply', if_neg (by simp [hs'])]
  have hbe : beUint 8 (putBE 8 n) = .ok n := by
    unfold beUint
    rw [if_pos (by simp [putBE_length]), List.take_of_length_le (by simp [putBE_length]),
      getBE_putBE_lt 8 n (by simpa using hn)]
  rw [hbe, Rd.bind_of_ok (Rd.lift_apply _ _), Rd.pure_apply]
  have : toSigned 64 n = if n < 2 ^ 63 then (n : Int) else n - 2 ^ 64 := by
    unfold toSigned
    rw [Nat.mod_eq_of_lt hn]
    split <;> simp_all
  rw [this]

/-- Non-vacuity. -/
example : (Bin.increment {} b!"k" 1 0).rd (rawRes 5 0 0 0 0 8 0 0 ++ [255, 255, 255, 255, 255, 255, 255, 254] ++ b!"rest")
    = (.ok (-2), b!"rest") := by decide +kernel

end Props
end Verif
