import Verif.Lemmas.Never
import Verif.Mc.Session
/-! Helper: readers that have consumed everything when they fail for want of bytes. -/

namespace Verif
variable {α β : Type}

/-- Nothing is left when the reader fails for want of bytes. -/
def Drained (m : Rd α) : Prop := ∀ i, (m i).1 = .err .io → (m i).2 = []

theorem Never.drained {m : Rd α} (h : Never .io m) : Drained m := fun i hi => (h i hi).elim
theorem drained_ite {c : Prop} [Decidable c] {a b : Rd α} (ha : Drained a) (hb : Drained b) :
    Drained (if c then a else b) := by split <;> assumption
theorem Drained.bind {m : Rd α} {f : α → Rd β} (hm : Drained m) (hf : ∀ a, Drained (f a)) : Drained (m >>= f) := by
  intro i
  rw [Rd.bind_apply]
  have h := hm i
  cases hmi : m i with
  | mk res r =>
    rw [hmi] at h
    cases res with
    | ok a => exact hf a r
    | err e => simpa using h
    | panic => simp
theorem drained_readFull (n : Nat) : Drained (readFull n) := by
  intro i
  unfold readFull
  split
  · intro h; cases h
  · intro _; rfl
theorem drained_readSlice : Drained readSlice := by
  intro i
  unfold readSlice
  cases splitLine i with
  | none =>
    dsimp only
    split
    · intro h; cases h
    · intro _; rfl
  | some x =>
    dsimp only
    split <;> (intro h; cases h)
theorem drained_readN (n : Int) : Drained (readN n) :=
  (Never.drained (never_lift (makeLen_ne n _))).bind fun _ => drained_readFull _

theorem bind_ne {m : Res α} {f : α → Res β} {e : Err} (hm : m ≠ .err e) (hf : ∀ a, f a ≠ .err e) : (m >>= f) ≠ .err e := by
  cases m with
  | ok a => exact hf a
  | err e' => intro h; exact hm (by injection h with h; rw [h])
  | panic => intro h; cases h

theorem flagToken_ne (c : UInt8) (v : Bytes) (it : Item) : Meta.readGetFlagToken c v it ≠ .err .io := by
  unfold Meta.readGetFlagToken
  split
  · exact bind_ne (numRes_ne _ (by decide)) (fun _ h => by cases h)
  split
  · exact bind_ne (numRes_ne _ (by decide)) (fun _ h => by cases h)
  split
  · exact bind_ne (numRes_ne _ (by decide)) (fun _ h => by cases h)
  split <;> (intro h; cases h)

theorem hdrStep_ne (st : Meta.HdrState) (c : UInt8) : Meta.hdrStep st c ≠ .err .io := by
  unfold Meta.hdrStep
  dsimp only
  split
  · split
    · exact bind_ne (numRes_ne _ (by decide)) (fun _ h => by cases h)
    split
    · exact bind_ne (flagToken_ne _ _ _) (fun _ h => by cases h)
    · intro h; cases h
  split
  · split
    · exact bind_ne (flagToken_ne _ _ _) (fun _ h => by cases h)
    · intro h; cases h
  split
  · split <;> (intro h; cases h)
  · intro h; cases h

theorem hdrScan_ne (st : Meta.HdrState) (b : Bytes) : Meta.hdrScan st b ≠ .err .io := by
  induction b generalizing st with
  | nil => intro h; cases h
  | cons c r ih => exact bind_ne (hdrStep_ne st c) fun st' => ih st'

theorem drained_fail {e : Err} (h : e ≠ .io) : Drained (Rd.fail e : Rd α) := Never.drained (never_fail h)
theorem drained_pure (a : α) : Drained (pure a : Rd α) := Never.drained (never_pure _ a)

theorem drained_parse : Drained Meta.parseGetResponse := by
  unfold Meta.parseGetResponse
  refine drained_readSlice.bind fun b => ?_
  refine drained_ite (drained_fail (by decide)) (drained_ite (drained_fail (by decide)) (drained_ite (drained_fail (by decide)) ?_))
  refine (Never.drained (never_lift (sliceFrom_ne _ _ _))).bind fun body => ?_
  refine (Never.drained (never_lift (hdrScan_ne _ _))).bind fun st => ?_
  refine (drained_readN _).bind fun buf => ?_
  exact (Never.drained (never_lift (sliceTo_ne _ _ _))).bind fun v => drained_pure _

theorem Drained.map {c : Call α} (h : Drained c.rd) (f : α → β) : Drained (c.map f).rd := by
  intro i hi
  refine h i ?_
  have : ((c.rd i).1.map f) = .err .io := hi
  cases hc : (c.rd i).1 with
  | ok a => rw [hc] at this; cases this
  | err e => rw [hc] at this; simpa [Res.map] using this
  | panic => rw [hc] at this; cases this

theorem drained_get (k : Bytes) : Drained (Mc.metaCall (.get k)).rd :=
  Drained.map (c := Meta.get k) (drained_parse.bind fun _ => drained_pure _) _

theorem drained_set (i : Item) : Drained (Mc.metaCall (.set i)).rd :=
  Drained.map (c := Meta.set i) (drained_readSlice.bind fun b => by
    exact drained_ite (drained_pure _) (drained_ite (drained_fail (by decide)) (drained_ite (drained_fail (by decide))
      (drained_ite (drained_fail (by decide)) (drained_fail (by decide)))))) _

end Verif
