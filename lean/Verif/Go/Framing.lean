import Verif.Go.Lemmas
/-!
Structural facts about stream readers, proved once for the primitives and closed under
sequencing:
* `Stable m`: unless the stream ended too early, the outcome of `m` does not change when
  more bytes follow, and those bytes are left unread;
* `Suffix m`: what is left unread is a suffix of the stream.
-/

namespace Verif

variable {α β : Type}

/-- More input after what was needed changes nothing. (Auxiliary, used in proofs only.) -/
def Stable (m : Rd α) : Prop :=
  ∀ i t, (m i).1 ≠ .err .io → m (i ++ t) = ((m i).1, (m i).2 ++ t)

/-- The unread rest is a suffix of the input. (Auxiliary, used in proofs only.) -/
def Suffix (m : Rd α) : Prop := ∀ i, (m i).2 <:+ i

theorem Suffix.length_le {m : Rd α} (h : Suffix m) (i : Bytes) : (m i).2.length ≤ i.length :=
  (h i).length_le

theorem stable_pure (a : α) : Stable (pure a : Rd α) := fun _ _ _ => rfl
theorem stable_fail (e : Err) : Stable (Rd.fail e : Rd α) := fun _ _ _ => rfl
theorem stable_lift (r : Res α) : Stable (Rd.lift r) := fun _ _ _ => rfl
theorem suffix_pure (a : α) : Suffix (pure a : Rd α) := fun i => List.suffix_refl i
theorem suffix_fail (e : Err) : Suffix (Rd.fail e : Rd α) := fun i => List.suffix_refl i
theorem suffix_lift (r : Res α) : Suffix (Rd.lift r) := fun i => List.suffix_refl i

theorem Stable.bind {m : Rd α} {f : α → Rd β} (hm : Stable m) (hf : ∀ a, Stable (f a)) :
    Stable (m >>= f) := by
  intro i t h
  rw [Rd.bind_apply] at h
  rw [Rd.bind_apply, Rd.bind_apply]
  cases hmi : m i with
  | mk res r =>
    rw [hmi] at h
    cases res with
    | ok a =>
      have := hm i t (by rw [hmi]; simp)
      rw [hmi] at this
      simp only [this]
      exact hf a r t h
    | err e =>
      have := hm i t (by rw [hmi]; simpa using h)
      rw [hmi] at this
      simp only [this]
    | panic =>
      have := hm i t (by rw [hmi]; simp)
      rw [hmi] at this
      simp only [this]

theorem Suffix.bind {m : Rd α} {f : α → Rd β} (hm : Suffix m) (hf : ∀ a, Suffix (f a)) :
    Suffix (m >>= f) := by
  intro i
  rw [Rd.bind_apply]
  have h := hm i
  cases hmi : m i with
  | mk res r =>
    rw [hmi] at h
    cases res with
    | ok a => exact (hf a r).trans h
    | err e => exact h
    | panic => exact h

theorem stable_ite {c : Prop} [Decidable c] {a b : Rd α} (ha : Stable a) (hb : Stable b) :
    Stable (if c then a else b) := by split <;> assumption
theorem suffix_ite {c : Prop} [Decidable c] {a b : Rd α} (ha : Suffix a) (hb : Suffix b) :
    Suffix (if c then a else b) := by split <;> assumption

theorem splitLine_append_some {i l r : Bytes} (t : Bytes) (h : splitLine i = some (l, r)) :
    splitLine (i ++ t) = some (l, r ++ t) := by
  obtain ⟨rfl, p, rfl, hp⟩ := splitLine_some h
  simpa using splitLine_append p (r ++ t) hp

theorem stable_readBytes : Stable readBytes := by
  intro i t h
  unfold readBytes at *
  cases hs : splitLine i with
  | none => simp [hs] at h
  | some q =>
    obtain ⟨l, r⟩ := q
    simp [splitLine_append_some t hs]

theorem suffix_readBytes : Suffix readBytes := by
  intro i
  unfold readBytes
  cases hs : splitLine i with
  | none => exact List.nil_suffix
  | some q =>
    obtain ⟨l, r⟩ := q
    obtain ⟨rfl, _⟩ := splitLine_some hs
    exact List.suffix_append l r

theorem splitLine_long {i t l r : Bytes} (h : splitLine i = none) (h' : splitLine (i ++ t) = some (l, r)) :
    i.length < l.length := by
  obtain ⟨e, p, rfl, hp⟩ := splitLine_some h'
  rw [splitLine_none] at h
  by_cases hl : i.length ≤ p.length
  · simp; omega
  · exfalso
    apply h
    -- the LF lies inside i
    have e' : i ++ t = p ++ (10 :: r) := by simpa using e
    have h1 : (i ++ t)[p.length]? = some 10 := by rw [e']; simp
    rw [List.getElem?_append_left (by omega)] at h1
    exact List.mem_of_getElem? h1

theorem stable_readSlice : Stable readSlice := by
  intro i t h
  unfold readSlice at *
  cases hs : splitLine i with
  | none =>
    simp only [hs] at h ⊢
    split at h
    · rename_i hl
      have hd : (i ++ t).drop bufSize = i.drop bufSize ++ t := by
        rw [List.drop_append_of_le_length hl]
      simp only [hl, if_true]
      cases hs' : splitLine (i ++ t) with
      | none =>
        have : bufSize ≤ i.length + t.length := by omega
        simp [this, hd]
      | some q =>
        obtain ⟨l, r⟩ := q
        have := splitLine_long hs hs'
        have : ¬ l.length ≤ bufSize := by omega
        simp [this, hd]
    · simp at h
  | some q =>
    obtain ⟨l, r⟩ := q
    simp only [hs] at h ⊢
    simp only [splitLine_append_some t hs]
    by_cases hl : l.length ≤ bufSize
    · simp [hl]
    · simp only [hl, if_false]
      have hi : bufSize ≤ i.length := by
        obtain ⟨rfl, _⟩ := splitLine_some hs
        simp; omega
      rw [List.drop_append_of_le_length hi]

theorem suffix_readSlice : Suffix readSlice := by
  intro i
  unfold readSlice
  cases hs : splitLine i with
  | none =>
    dsimp only
    split
    · exact List.drop_suffix _ _
    · exact List.nil_suffix
  | some q =>
    obtain ⟨l, r⟩ := q
    obtain ⟨rfl, _⟩ := splitLine_some hs
    dsimp only
    split
    · exact List.suffix_append l r
    · exact List.drop_suffix _ _

theorem stable_readFull (n : Nat) : Stable (readFull n) := by
  intro i t h
  unfold readFull at *
  split at h
  · rename_i hl
    have : n ≤ (i ++ t).length := by simp; omega
    simp [hl, this, List.take_append_of_le_length hl, List.drop_append_of_le_length hl]
    omega
  · simp at h

theorem suffix_readFull (n : Nat) : Suffix (readFull n) := by
  intro i
  unfold readFull
  split
  · exact List.drop_suffix _ _
  · exact List.nil_suffix

theorem stable_readN (n : Int) : Stable (readN n) :=
  (stable_lift _).bind (fun k => stable_readFull k)
theorem suffix_readN (n : Int) : Suffix (readN n) :=
  (suffix_lift _).bind (fun k => suffix_readFull k)

/-- A reader that succeeds (or fails for a reason other than the end of the stream) having
consumed `c` gives the connection error on every strict prefix of `c`. -/
theorem Stable.cut {m : Rd α} (hs : Stable m) {c r : Bytes} {x : Res α}
    (h : m (c ++ r) = (x, r)) (p t : Bytes) (hc : c = p ++ t) (ht : t ≠ []) :
    (m p).1 = .err .io := by
  apply Classical.byContradiction
  intro hne
  have := hs p (t ++ r) hne
  rw [hc, List.append_assoc] at h
  rw [h] at this
  have hl := congrArg (fun q => q.2.length) this
  simp at hl
  exact ht (List.length_eq_zero_iff.1 (by omega))

/-- Prove `Stable`/`Suffix` of a reader by following its structure. -/
macro "framing" : tactic => `(tactic| repeat' (first
  | with_reducible exact stable_pure _ | with_reducible exact stable_fail _
  | with_reducible exact stable_lift _ | with_reducible exact stable_readSlice
  | with_reducible exact stable_readBytes | with_reducible exact stable_readFull _
  | with_reducible exact stable_readN _
  | with_reducible exact suffix_pure _ | with_reducible exact suffix_fail _
  | with_reducible exact suffix_lift _ | with_reducible exact suffix_readSlice
  | with_reducible exact suffix_readBytes | with_reducible exact suffix_readFull _
  | with_reducible exact suffix_readN _
  | with_reducible apply stable_ite | with_reducible apply suffix_ite
  | with_reducible apply Stable.bind | with_reducible apply Suffix.bind
  | (with_reducible intro _; try dsimp only) | split))

end Verif
