import Verif.Props.Acks
import Verif.Lemmas.Never
/-!
C21: for which replies an operation returns ItemNotFound or ItemExists.
-/

namespace Verif
namespace Props
open Spec

/-! ### Text protocol -/

theorem never_getReply (e : Err) (h1 : e = .itemNotFound ∨ e = .itemExists) (name : Bytes) (size : Int)
    (key : Bytes) (flags cas : Nat) :
    Never e (do
      let buf ← readN (size + 2)
      let v ← Rd.lift (sliceTo buf size)
      let x ← readSlice
      if x ≠ Text.msgEnd then Rd.fail errInvalidResponse
      else pure { key := key, value := v, flags := some (putBE 4 flags), cas := cas, server := name } : Rd Item) := by
  have ha : e ≠ .io := by rcases h1 with rfl | rfl <;> simp
  have hb : e ≠ .bufferFull := by rcases h1 with rfl | rfl <;> simp
  have hc : errInvalidResponse ≠ e := by rcases h1 with rfl | rfl <;> simp [errInvalidResponse]
  exact (never_readN ha _).bind fun _ => (never_lift (sliceTo_ne _ _ _)).bind fun _ =>
    (never_readSlice ha hb).bind fun _ => never_ite (never_fail hc) (never_pure _ _)

/-- C21, text Get: ItemNotFound exactly for a reply that starts with `END`. -/
theorem C21_get_text (name k i r : Bytes) :
    (Text.get name k).rd i = (.err .itemNotFound, r) ↔ i = b!"END\r\n" ++ r := by
  show (readSlice >>= _) i = _ ↔ _
  rw [line_iff (by simp)]
  constructor
  · rintro ⟨l, r', hl, he⟩
    rw [Rd.ite_apply'] at he
    split at he
    · rename_i h
      simp only [Rd.fail_apply, Prod.mk.injEq, true_and] at he
      subst he; subst h
      exact hl.1
    · exfalso
      rw [Rd.ite_apply'] at he
      split at he
      · simp [errInvalidResponse] at he
      · cases hs : Scan.scanValue (l.count 32 != 3) l with
        | none => rw [hs] at he; simp at he
        | some q =>
          obtain ⟨key, flags, size, cas⟩ := q
          rw [hs] at he
          have := never_getReply .itemNotFound (.inl rfl) name size key flags cas r'
          exact this (by simpa using congrArg Prod.fst he)
  · rintro rfl
    exact ⟨b!"END\r\n", r, ⟨rfl, line_end, by decide⟩, rfl⟩

/-- C21, text Set: ItemExists exactly for `EXISTS`, never ItemNotFound (a token for a missing key gives
an unnamed error). -/
theorem C21_set_text (item : Item) (i r : Bytes) :
    ((Text.set item).rd i = (.err .itemExists, r) ↔ i = b!"EXISTS\r\n" ++ r)
    ∧ (Text.set item).rd i ≠ (.err .itemNotFound, r) := by
  constructor
  · rw [line_table (textSet_table item) _ (by simp)]
    refine exists_lit line_exists (by decide) (fun l => ?_)
    unfold Table.textSet
    split
    · rename_i h; simp [h]; decide
    · split <;> simp <;> assumption
  · rw [Ne, line_table (textSet_table item) _ (by simp)]
    refine exists_none fun l => ?_
    unfold Table.textSet
    split <;> (try split) <;> simp

/-- C21, Add of text and meta: ItemExists for every line but `STORED` (also for an error line). -/
theorem C21_add_text (item : Item) (i r : Bytes) :
    ((Text.add item).rd i = (.err .itemExists, r) ↔ ∃ l, Reply i l r ∧ l ≠ b!"STORED\r\n")
    ∧ (Text.add item).rd i ≠ (.err .itemNotFound, r) := by
  constructor
  · rw [line_table (textAdd_table item) _ (by simp)]
    refine exists_congr' fun l => ?_
    unfold Table.add
    split <;> simp <;> assumption
  · rw [Ne, line_table (textAdd_table item) _ (by simp)]
    exact exists_none fun l => by unfold Table.add; split <;> simp
theorem C21_add_meta (item : Item) (i r : Bytes) :
    ((Meta.add item).rd i = (.err .itemExists, r) ↔ ∃ l, Reply i l r ∧ l ≠ b!"STORED\r\n")
    ∧ (Meta.add item).rd i ≠ (.err .itemNotFound, r) := C21_add_text item i r

/-- C21, Replace of text and meta: ItemNotFound for every line but `STORED`. -/
theorem C21_replace_text (item : Item) (i r : Bytes) :
    ((Text.replace item).rd i = (.err .itemNotFound, r) ↔ ∃ l, Reply i l r ∧ l ≠ b!"STORED\r\n")
    ∧ (Text.replace item).rd i ≠ (.err .itemExists, r) := by
  constructor
  · rw [line_table (textReplace_table item) _ (by simp)]
    refine exists_congr' fun l => ?_
    unfold Table.replace
    split <;> simp <;> assumption
  · rw [Ne, line_table (textReplace_table item) _ (by simp)]
    exact exists_none fun l => by unfold Table.replace; split <;> simp
theorem C21_replace_meta (item : Item) (i r : Bytes) :
    ((Meta.replace item).rd i = (.err .itemNotFound, r) ↔ ∃ l, Reply i l r ∧ l ≠ b!"STORED\r\n")
    ∧ (Meta.replace item).rd i ≠ (.err .itemExists, r) := C21_replace_text item i r

/-- C21, text Delete and Touch: ItemNotFound exactly for `NOT_FOUND`. -/
theorem C21_delete_text (k i r : Bytes) :
    ((Text.delete k).rd i = (.err .itemNotFound, r) ↔ i = b!"NOT_FOUND\r\n" ++ r)
    ∧ (Text.delete k).rd i ≠ (.err .itemExists, r) := by
  constructor
  · rw [line_table (textDelete_table k) _ (by simp)]
    refine exists_lit line_notFound (by decide) (fun l => ?_)
    unfold Table.textDelete
    split
    · rename_i h; simp [h]; decide
    · split <;> simp <;> assumption
  · rw [Ne, line_table (textDelete_table k) _ (by simp)]
    exact exists_none fun l => by unfold Table.textDelete; split <;> (try split) <;> simp
theorem C21_touch_text (k : Bytes) (e : Int) (i r : Bytes) :
    ((Text.touch k e).rd i = (.err .itemNotFound, r) ↔ i = b!"NOT_FOUND\r\n" ++ r)
    ∧ (Text.touch k e).rd i ≠ (.err .itemExists, r) := by
  constructor
  · rw [line_table (textTouch_table k e) _ (by simp)]
    refine exists_lit line_notFound (by decide) (fun l => ?_)
    unfold Table.textTouch
    split
    · rename_i h; simp [h]; decide
    · split <;> simp <;> assumption
  · rw [Ne, line_table (textTouch_table k e) _ (by simp)]
    exact exists_none fun l => by unfold Table.textTouch; split <;> (try split) <;> simp

/-- C21, Increment/Decrement of text and meta: ItemNotFound exactly for `NOT_FOUND`. -/
theorem C21_arith_text (op k : Bytes) (d : Int) (i r : Bytes) :
    ((Text.incrOrDecr op k d).rd i = (.err .itemNotFound, r) ↔ i = b!"NOT_FOUND\r\n" ++ r)
    ∧ (Text.incrOrDecr op k d).rd i ≠ (.err .itemExists, r) := by
  have hne : ∀ (l : Bytes) (e : Err), e ≠ .num →
      ((sliceTo l (l.length - 2)).bind fun d => numRes (parseInt d 64)) ≠ .err e := by
    intro l e he
    have := sliceTo_ne l (l.length - 2) e
    cases hq : sliceTo l (l.length - 2) with
    | ok d => exact numRes_ne _ he
    | err e' => rw [hq] at this; simpa [Res.bind] using this
    | panic => simp [Res.bind]
  constructor
  · rw [line_table (textArith_table op k d) _ (by simp)]
    refine exists_lit line_notFound (by decide) (fun l => ?_)
    unfold Table.arith
    split
    · rename_i h; simp [h]; rfl
    · rename_i h
      simp only [hne l _ (by simp : Err.itemNotFound ≠ .num), false_iff]
      exact h
  · rw [Ne, line_table (textArith_table op k d) _ (by simp)]
    refine exists_none fun l => ?_
    unfold Table.arith
    split
    · simp
    · exact hne l _ (by simp)
theorem C21_arith_meta (op k : Bytes) (d : Int) (i r : Bytes) :
    ((Meta.incrOrDecr op k d).rd i = (.err .itemNotFound, r) ↔ i = b!"NOT_FOUND\r\n" ++ r)
    ∧ (Meta.incrOrDecr op k d).rd i ≠ (.err .itemExists, r) := C21_arith_text op k d i r

/-! ### Meta protocol -/

/-- C21, meta Get: ItemNotFound exactly for `EN` (or `MN`, the answer to a no-op). -/
theorem C21_get_meta (k i r : Bytes) : (Meta.get k).rd i = (.err .itemNotFound, r)
    ↔ i = b!"EN\r\n" ++ r ∨ i = b!"MN\r\n" ++ r := by
  have hp : ∀ i r, Meta.parseGetResponse i = (.err .itemNotFound, r)
      ↔ i = b!"EN\r\n" ++ r ∨ i = b!"MN\r\n" ++ r := by
    intro i r
    show (readSlice >>= _) i = _ ↔ _
    rw [line_iff (by simp)]
    constructor
    · rintro ⟨l, r', hl, he⟩
      rw [Rd.ite_apply'] at he
      split at he
      · rename_i h
        simp only [Rd.fail_apply, Prod.mk.injEq, true_and] at he
        subst he; subst h
        exact .inl hl.1
      · rw [Rd.ite_apply'] at he
        split at he
        · rename_i h
          simp only [Rd.fail_apply, Prod.mk.injEq, true_and] at he
          subst he; subst h
          exact .inr hl.1
        · exfalso
          rw [Rd.ite_apply'] at he
          split at he
          · simp at he
          · have hn : Never .itemNotFound (do
                let body ← Rd.lift (sliceFrom l 3)
                let st ← Rd.lift (Meta.hdrScan {} body)
                let buf ← readN (st.size + 2)
                let v ← Rd.lift (sliceTo buf st.size)
                pure { st.item with value := v } : Rd Item) := by
              refine (never_lift (sliceFrom_ne _ _ _)).bind fun body => (never_lift ?_).bind fun st =>
                (never_readN (by simp) _).bind fun _ => (never_lift (sliceTo_ne _ _ _)).bind fun _ => never_pure _ _
              have hstep : ∀ st c, Meta.hdrStep st c ≠ .err .itemNotFound := by
                intro st c
                have hb : ∀ {α β : Type} (o : Option α) (g : α → Res β), (∀ a, g a ≠ .err .itemNotFound) →
                    (numRes o >>= g) ≠ .err .itemNotFound := by
                  intro α β o g hg
                  cases o with
                  | none => simp [numRes]
                  | some a => exact hg a
                have htok : ∀ n v it, Meta.readGetFlagToken n v it ≠ .err .itemNotFound := by
                  intro n v it
                  unfold Meta.readGetFlagToken
                  split
                  · exact hb _ _ (fun a => by simp)
                  · split
                    · exact hb _ _ (fun a => by simp)
                    · split
                      · exact hb _ _ (fun a => by simp)
                      · split <;> simp
                have hb2 : ∀ {β : Type} n v it (g : Item → Res β), (∀ a, g a ≠ .err .itemNotFound) →
                    (Meta.readGetFlagToken n v it >>= g) ≠ .err .itemNotFound := by
                  intro β n v it g hg
                  have := htok n v it
                  cases hq : Meta.readGetFlagToken n v it with
                  | ok a => exact hg a
                  | err e => rw [hq] at this; simpa using this
                  | panic => simp
                unfold Meta.hdrStep
                dsimp only
                split
                · split
                  · exact hb _ _ (fun a => by simp)
                  · split
                    · exact hb2 _ _ _ _ (fun a => by simp)
                    · simp
                · split
                  · split
                    · exact hb2 _ _ _ _ (fun a => by simp)
                    · simp
                  · split
                    · split <;> simp
                    · simp
              have hscan : ∀ (body : Bytes) st, Meta.hdrScan st body ≠ .err .itemNotFound := by
                intro body
                induction body with
                | nil => intro st; simp [Meta.hdrScan]
                | cons c cs ih =>
                  intro st
                  unfold Meta.hdrScan
                  have := hstep st c
                  cases hq : Meta.hdrStep st c with
                  | ok a => exact ih a
                  | err e => rw [hq] at this; simpa using this
                  | panic => simp
              exact hscan body _
            exact hn r' (by simpa using congrArg Prod.fst he)
    · rintro (rfl | rfl)
      · exact ⟨b!"EN\r\n", r, ⟨rfl, line_en, by decide⟩, rfl⟩
      · exact ⟨b!"MN\r\n", r, ⟨rfl, line_mn, by decide⟩, rfl⟩
  rw [← hp i r]
  show (Meta.parseGetResponse >>= _) i = _ ↔ _
  rw [Rd.bind_apply]
  cases hq : Meta.parseGetResponse i with
  | mk x r' => cases x <;> simp

theorem two_prefix {a b : UInt8} {l : Bytes} : List.isPrefixOf [a, b] l = true ↔ ∃ t, l = a :: b :: t := by
  rw [List.isPrefixOf_iff_prefix]
  constructor
  · rintro ⟨t, rfl⟩; exact ⟨t, rfl⟩
  · rintro ⟨t, rfl⟩; exact ⟨t, rfl⟩

/-- C21, meta Set: ItemExists exactly for `EX`, ItemNotFound exactly for `NF`. -/
theorem C21_set_meta (item : Item) (i r : Bytes) :
    ((Meta.set item).rd i = (.err .itemExists, r) ↔ ∃ l, Reply i l r ∧ b!"EX" <+: l)
    ∧ ((Meta.set item).rd i = (.err .itemNotFound, r) ↔ ∃ l, Reply i l r ∧ b!"NF" <+: l) := by
  constructor
  · rw [line_table (metaSet_table item) _ (by simp)]
    refine exists_congr' fun l => ?_
    rw [← List.isPrefixOf_iff_prefix]
    unfold Table.metaSet hasPrefix
    split
    · rename_i h; obtain ⟨t, rfl⟩ := two_prefix.1 h; simp
    · split
      · rename_i h; obtain ⟨t, rfl⟩ := two_prefix.1 h; simp
      · split
        · rename_i h; simp [h]
        · rename_i h
          split <;> simp <;> simpa using h
  · rw [line_table (metaSet_table item) _ (by simp)]
    refine exists_congr' fun l => ?_
    rw [← List.isPrefixOf_iff_prefix]
    unfold Table.metaSet hasPrefix
    split
    · rename_i h; obtain ⟨t, rfl⟩ := two_prefix.1 h; simp
    · split
      · rename_i h; obtain ⟨t, rfl⟩ := two_prefix.1 h; simp
      · split
        · rename_i h; obtain ⟨t, rfl⟩ := two_prefix.1 h; simp
        · split
          · rename_i h; simp [h]
          · rename_i h; simp; simpa using h

/-- C21, meta Delete: ItemNotFound for `EX` (which means "exists"), while `NF` is a success. -/
theorem C21_delete_meta (k i r : Bytes) :
    ((Meta.delete k).rd i = (.err .itemNotFound, r) ↔ ∃ l, Reply i l r ∧ b!"EX" <+: l)
    ∧ (Meta.delete k).rd i ≠ (.err .itemExists, r)
    ∧ (Meta.delete k).rd (b!"NF\r\n" ++ r) = (.ok (), r) := by
  refine ⟨?_, ?_, rfl⟩
  · rw [line_table (metaDelete_table k) _ (by simp)]
    refine exists_congr' fun l => ?_
    rw [← List.isPrefixOf_iff_prefix]
    unfold Table.metaDelete hasPrefix
    split
    · rename_i h; obtain ⟨t, rfl⟩ := two_prefix.1 h; simp
    · split
      · rename_i h; obtain ⟨t, rfl⟩ := two_prefix.1 h; simp
      · split
        · rename_i h; simp [h]
        · rename_i h; simp; simpa using h
  · rw [Ne, line_table (metaDelete_table k) _ (by simp)]
    refine exists_none fun l => ?_
    unfold Table.metaDelete
    split <;> (try split) <;> (try split) <;> simp

/-- C21, meta Touch: neither; a missing key gives an unnamed error. -/
theorem C21_touch_meta (k : Bytes) (e : Int) (i r : Bytes) :
    (Meta.touch k e).rd i ≠ (.err .itemNotFound, r) ∧ (Meta.touch k e).rd i ≠ (.err .itemExists, r) := by
  constructor <;>
  · rw [Ne, line_table (metaTouch_table k e) _ (by simp)]
    exact exists_none fun l => by unfold Table.metaTouch; split <;> simp

/-! ### Binary protocol -/

theorem statusErr_proper (s : Nat) : ∃ m, Bin.statusErr s = .msg m := statusErr_ne s

/-- C21, binary Get: ItemNotFound exactly for a complete response with status 1. -/
theorem C21_get_binary (hd : Bin.ReqHdr) (k i r : Bytes) :
    (Bin.get hd k).rd i = (.err .itemNotFound, r) ↔ ∃ h b, BinReply i h b r ∧ statusOf h = 1 := by
  show (Bin.readHdr >>= _) i = _ ↔ _
  rw [hdr_iff (by simp) (by simp [errInvalidResponse])]
  constructor
  · rintro ⟨h, r', rfl, hb, he⟩
    obtain ⟨b, r2, rfl, hl, he⟩ := (full_iff (by simp)).1 he
    rw [Rd.ite_apply'] at he
    split at he
    · rw [Rd.ite_apply'] at he
      split at he
      · rename_i hs
        simp only [Rd.fail_apply, Prod.mk.injEq, true_and] at he
        subst he
        exact ⟨h, b, ⟨by simp, hb, hl⟩, hs⟩
      · obtain ⟨m, hm⟩ := statusErr_ne (Bin.ResHdr.ofBytes h).status
        rw [hm] at he
        simp at he
    · exfalso
      have hn : Never .itemNotFound (do
          let v ← Rd.lift (sliceFrom b (Bin.ResHdr.ofBytes h).valueStart)
          let f ← Rd.lift (sliceTo b (Bin.ResHdr.ofBytes h).extraLength)
          pure { key := k, value := v, flags := some f, cas := (Bin.ResHdr.ofBytes h).cas } : Rd Item) :=
        (never_lift (sliceFrom_ne _ _ _)).bind fun _ => (never_lift (sliceTo_ne _ _ _)).bind fun _ => never_pure _ _
      exact hn r2 (by simpa using congrArg Prod.fst he)
  · rintro ⟨h, b, ⟨rfl, hb, hl⟩, hs⟩
    refine ⟨h, b ++ r, by simp, hb, (full_iff (by simp)).2 ⟨b, r, rfl, hl, ?_⟩⟩
    have hs' : (Bin.ResHdr.ofBytes h).status = 1 := hs
    simp [hs']

/-- The header of an unsuccessful `op`. -/
def BinNack (op : UInt8) (status : Nat) (h : Bytes) : Prop := BinHead h ∧ opcodeOf h = op ∧ statusOf h = status

theorem bin_store_exists {op : UInt8} {i r : Bytes} :
    ((do
      let r ← Bin.readHdr
      if r.opcode ≠ op then Rd.fail errInvalidResponse
      else if r.status ≠ 0 then
        if r.status = 2 then Rd.fail .itemExists else Rd.fail (Bin.statusErr r.status)
      else pure () : Rd Unit) i = (.err .itemExists, r) ↔ ∃ h, i = h ++ r ∧ BinNack op 2 h)
    ∧ (do
      let r ← Bin.readHdr
      if r.opcode ≠ op then Rd.fail errInvalidResponse
      else if r.status ≠ 0 then
        if r.status = 2 then Rd.fail .itemExists else Rd.fail (Bin.statusErr r.status)
      else pure () : Rd Unit) i ≠ (.err .itemNotFound, r) := by
  constructor
  · rw [hdr_iff (by simp) (by simp [errInvalidResponse])]
    constructor
    · rintro ⟨h, r', rfl, hb, he⟩
      simp only [Rd.ite_apply', Rd.fail_apply, Rd.pure_apply] at he
      split at he
      · simp [errInvalidResponse] at he
      · rename_i h1
        split at he
        · split at he
          · rename_i h2
            simp only [Prod.mk.injEq, true_and] at he
            subst he
            exact ⟨h, rfl, hb, Decidable.not_not.1 h1, h2⟩
          · obtain ⟨m, hm⟩ := statusErr_ne (Bin.ResHdr.ofBytes h).status
            rw [hm] at he
            simp at he
        · simp at he
    · rintro ⟨h, rfl, hb, h1, h2⟩
      refine ⟨h, r, rfl, hb, ?_⟩
      have h1' : (Bin.ResHdr.ofBytes h).opcode = op := h1
      have h2' : (Bin.ResHdr.ofBytes h).status = 2 := h2
      simp [h1', h2']
  · rw [Ne, hdr_iff (by simp) (by simp [errInvalidResponse])]
    rintro ⟨h, r', rfl, hb, he⟩
    simp only [Rd.ite_apply', Rd.fail_apply, Rd.pure_apply] at he
    obtain ⟨m, hm⟩ := statusErr_ne (Bin.ResHdr.ofBytes h).status
    rw [hm] at he
    split at he
    · simp [errInvalidResponse] at he
    · split at he
      · split at he <;> simp at he
      · simp at he

/-- C21, binary Set and Add: ItemExists exactly for status 2; never ItemNotFound. -/
theorem C21_set_binary (hd : Bin.ReqHdr) (item : Item) (i r : Bytes) :
    ((Bin.set hd item).rd i = (.err .itemExists, r) ↔ ∃ h, i = h ++ r ∧ BinNack 1 2 h)
    ∧ (Bin.set hd item).rd i ≠ (.err .itemNotFound, r) := bin_store_exists
theorem C21_add_binary (hd : Bin.ReqHdr) (item : Item) (i r : Bytes) :
    ((Bin.add hd item).rd i = (.err .itemExists, r) ↔ ∃ h, i = h ++ r ∧ BinNack 2 2 h)
    ∧ (Bin.add hd item).rd i ≠ (.err .itemNotFound, r) := bin_store_exists

theorem bin_nf {op : UInt8} {i r : Bytes} :
    ((Bin.readHdr >>= fun q => if q.opcode ≠ op then Rd.fail errInvalidResponse
        else readFull q.totalBodyLength >>= fun _ => (if q.status ≠ 0 then
          if q.status = 1 then Rd.fail .itemNotFound else Rd.fail (Bin.statusErr q.status)
        else pure () : Rd Unit)) i = (.err .itemNotFound, r)
      ↔ ∃ h b, BinReply i h b r ∧ opcodeOf h = op ∧ statusOf h = 1)
    ∧ (Bin.readHdr >>= fun q => if q.opcode ≠ op then Rd.fail errInvalidResponse
        else readFull q.totalBodyLength >>= fun _ => (if q.status ≠ 0 then
          if q.status = 1 then Rd.fail .itemNotFound else Rd.fail (Bin.statusErr q.status)
        else pure () : Rd Unit)) i ≠ (.err .itemExists, r) := by
  constructor
  · rw [body_iff (by simp) (by simp [errInvalidResponse])]
    constructor
    · rintro ⟨h, b, r', hr, ho, he⟩
      simp only [Rd.ite_apply', Rd.fail_apply, Rd.pure_apply] at he
      split at he
      · split at he
        · rename_i h2
          simp only [Prod.mk.injEq, true_and] at he
          subst he
          exact ⟨h, b, hr, ho, h2⟩
        · obtain ⟨m, hm⟩ := statusErr_ne (Bin.ResHdr.ofBytes h).status
          rw [hm] at he
          simp at he
      · simp at he
    · rintro ⟨h, b, hr, ho, h2⟩
      refine ⟨h, b, r, hr, ho, ?_⟩
      have h2' : (Bin.ResHdr.ofBytes h).status = 1 := h2
      simp [h2']
  · rw [Ne, body_iff (by simp) (by simp [errInvalidResponse])]
    rintro ⟨h, b, r', hr, ho, he⟩
    simp only [Rd.ite_apply', Rd.fail_apply, Rd.pure_apply] at he
    obtain ⟨m, hm⟩ := statusErr_ne (Bin.ResHdr.ofBytes h).status
    rw [hm] at he
    split at he
    · split at he <;> simp at he
    · simp at he

/-- C21, binary Replace and Delete: ItemNotFound exactly for a complete response with status 1. -/
theorem C21_replace_binary (hd : Bin.ReqHdr) (item : Item) (i r : Bytes) :
    ((Bin.replace hd item).rd i = (.err .itemNotFound, r)
      ↔ ∃ h b, BinReply i h b r ∧ opcodeOf h = 3 ∧ statusOf h = 1)
    ∧ (Bin.replace hd item).rd i ≠ (.err .itemExists, r) := bin_nf
theorem C21_delete_binary (hd : Bin.ReqHdr) (k i r : Bytes) :
    ((Bin.delete hd k).rd i = (.err .itemNotFound, r)
      ↔ ∃ h b, BinReply i h b r ∧ opcodeOf h = 4 ∧ statusOf h = 1)
    ∧ (Bin.delete hd k).rd i ≠ (.err .itemExists, r) := bin_nf

/-- C21, binary Increment/Decrement and Touch of a missing key (status 1) do **not** return
ItemNotFound: they never return either of the two errors. -/
theorem C21_arith_binary (hd : Bin.ReqHdr) (op : UInt8) (k : Bytes) (d e : Int) (i : Bytes) :
    ((Bin.incrOrDecr hd op k d e).rd i).1 ≠ .err .itemNotFound
    ∧ ((Bin.incrOrDecr hd op k d e).rd i).1 ≠ .err .itemExists := by
  have : ∀ x, x = Err.itemNotFound ∨ x = Err.itemExists → Never x (Bin.incrOrDecr hd op k d e).rd := by
    intro x hx
    have h1 : x ≠ .io := by rcases hx with rfl | rfl <;> simp
    have h2 : ∀ m, Err.msg m ≠ x := by rcases hx with rfl | rfl <;> simp
    show Never x (Bin.readHdr >>= _)
    refine (never_readHdr h1 (Ne.symm (h2 _))).bind fun q => never_ite (never_fail (h2 _)) ?_
    refine (never_readFull h1 _).bind fun body => never_ite ?_ ?_
    · cases Bin.binaryStatus.lookup q.status with
      | none => exact never_fail (h2 _)
      | some v => exact never_fail (h2 _)
    · exact (never_lift (beUint_ne _ _ _)).bind fun _ => never_pure _ _
  exact ⟨this _ (.inl rfl) i, this _ (.inr rfl) i⟩
theorem C21_touch_binary (hd : Bin.ReqHdr) (k : Bytes) (e : Int) (i : Bytes) :
    ((Bin.touch hd k e).rd i).1 ≠ .err .itemNotFound ∧ ((Bin.touch hd k e).rd i).1 ≠ .err .itemExists := by
  have : ∀ x, x = Err.itemNotFound ∨ x = Err.itemExists → Never x (Bin.touch hd k e).rd := by
    intro x hx
    have h1 : x ≠ .io := by rcases hx with rfl | rfl <;> simp
    have h2 : ∀ m, Err.msg m ≠ x := by rcases hx with rfl | rfl <;> simp
    show Never x (Bin.readHdr >>= _)
    refine (never_readHdr h1 (Ne.symm (h2 _))).bind fun q => never_ite ?_ (never_pure _ _)
    obtain ⟨m, hm⟩ := statusErr_ne q.status
    rw [hm]
    exact never_fail (h2 _)
  exact ⟨this _ (.inl rfl) i, this _ (.inr rfl) i⟩

/-- Non-vacuity: a binary "not found" answered to Get and to Touch. -/
def notFoundRes (op : UInt8) : Bytes := [0x81, op, 0, 0, 0, 0, 0, 1, 0, 0, 0, 9] ++ List.replicate 12 0 ++ b!"Not found"
example : (Bin.get {} b!"k").rd (notFoundRes 0) = (.err .itemNotFound, []) := rfl
example : (Bin.touch {} b!"k" 0).rd (notFoundRes 28)
    = (.err (.msg b!"memcached: error key not found"), b!"Not found") := rfl
example : (Text.add {}).rd b!"SERVER_ERROR out of memory\r\n" = (.err .itemExists, []) := rfl

end Props
end Verif
