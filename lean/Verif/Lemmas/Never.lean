import Verif.Lemmas.Reply
/-! Helper: readers that never return a given error. -/

namespace Verif
variable {α β : Type}

/-- The reader never returns the error `e`. -/
def Never (e : Err) (m : Rd α) : Prop := ∀ i, (m i).1 ≠ .err e

theorem never_pure (e : Err) (a : α) : Never e (pure a : Rd α) := fun _ => by simp
theorem never_fail {e e' : Err} (h : e' ≠ e) : Never e (Rd.fail e' : Rd α) := fun _ => by simpa using h
theorem never_lift {e : Err} {r : Res α} (h : r ≠ .err e) : Never e (Rd.lift r) := fun _ => by simpa using h
theorem never_ite {e : Err} {c : Prop} [Decidable c] {a b : Rd α} (ha : Never e a) (hb : Never e b) :
    Never e (if c then a else b) := by split <;> assumption
theorem Never.bind {e : Err} {m : Rd α} {f : α → Rd β} (hm : Never e m) (hf : ∀ a, Never e (f a)) :
    Never e (m >>= f) := by
  intro i
  rw [Rd.bind_apply]
  have h := hm i
  cases hmi : m i with
  | mk res r =>
    rw [hmi] at h
    cases res with
    | ok a => exact hf a r
    | err e' => simpa using h
    | panic => simp

theorem never_readFull {e : Err} (h : e ≠ .io) (n : Nat) : Never e (readFull n) := by
  intro i
  unfold readFull
  split <;> simp [h.symm]
theorem never_readSlice {e : Err} (h : e ≠ .io) (h' : e ≠ .bufferFull) : Never e readSlice := by
  intro i
  rcases readSlice_other i with ⟨l, r', hl⟩ | ⟨r', hl⟩ | ⟨r', hl⟩ <;> rw [hl] <;> simp [h.symm, h'.symm]
theorem makeLen_ne (n : Int) (e : Err) : makeLen n ≠ .err e := by unfold makeLen; split <;> simp
theorem sliceTo_ne (b : Bytes) (n : Int) (e : Err) : sliceTo b n ≠ .err e := by unfold sliceTo; split <;> simp
theorem sliceFrom_ne (b : Bytes) (n : Nat) (e : Err) : sliceFrom b n ≠ .err e := by unfold sliceFrom; split <;> simp
theorem slice_ne (b : Bytes) (m n : Nat) (e : Err) : slice b m n ≠ .err e := by unfold slice; split <;> simp
theorem index_ne {α : Type} (l : List α) (n : Nat) (e : Err) : index l n ≠ .err e := by unfold index; split <;> simp
theorem beUint_ne (k : Nat) (b : Bytes) (e : Err) : beUint k b ≠ .err e := by unfold beUint; split <;> simp
theorem numRes_ne {α : Type} (o : Option α) {e : Err} (h : e ≠ .num) : numRes o ≠ .err e := by
  cases o <;> simp [numRes, h.symm]
theorem never_readN {e : Err} (h : e ≠ .io) (n : Int) : Never e (readN n) :=
  (never_lift (makeLen_ne n e)).bind fun _ => never_readFull h _
theorem statusErr_ne (s : Nat) : ∃ m, Bin.statusErr s = .msg m := by
  unfold Bin.statusErr
  split <;> exact ⟨_, rfl⟩
theorem never_readHdr {e : Err} (h : e ≠ .io) (h' : e ≠ errInvalidResponse) : Never e Bin.readHdr := by
  unfold Bin.readHdr
  exact (never_readFull h 24).bind fun b => never_ite (never_fail (Ne.symm h')) (never_pure _ _)

end Verif
