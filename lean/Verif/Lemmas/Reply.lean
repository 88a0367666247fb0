import Verif.Spec.Reply
import Verif.Client.Binary
import Verif.Go.Framing
/-! Helper lemmas: readers of replies, as relations between stream, line and rest. -/

namespace Verif
open Spec

variable {α β : Type}

theorem readSlice_iff {i l r : Bytes} : readSlice i = (.ok l, r) ↔ Reply i l r := by
  unfold readSlice Reply Line
  constructor
  · intro h
    cases hs : splitLine i with
    | none => simp only [hs] at h; split at h <;> simp at h
    | some q =>
      obtain ⟨l', r'⟩ := q
      obtain ⟨e, p, hp, hn⟩ := splitLine_some hs
      simp only [hs] at h
      split at h
      · rename_i hl
        simp only [Prod.mk.injEq, Res.ok.injEq] at h
        obtain ⟨rfl, rfl⟩ := h
        exact ⟨e, ⟨p, hp, hn⟩, hl⟩
      · simp at h
  · rintro ⟨rfl, ⟨p, rfl, hn⟩, hl⟩
    have := splitLine_append p r hn
    have e : p ++ [10] ++ r = p ++ 10 :: r := by simp
    rw [e, this]
    have : (p ++ [10]).length ≤ bufSize := hl
    simp only [this, if_true]

theorem readFull_iff {n : Nat} {i b r : Bytes} :
    readFull n i = (.ok b, r) ↔ i = b ++ r ∧ b.length = n := by
  unfold readFull
  constructor
  · intro h
    split at h
    · rename_i hl
      simp only [Prod.mk.injEq, Res.ok.injEq] at h
      obtain ⟨rfl, rfl⟩ := h
      exact ⟨(List.take_append_drop n i).symm, by simp; omega⟩
    · simp at h
  · rintro ⟨rfl, rfl⟩
    simp

/-- The outcomes that are not connection errors. -/
def Proper (x : Res α) : Prop := x ≠ .err .io ∧ x ≠ .err .bufferFull

@[simp] theorem proper_ok (a : α) : Proper (Res.ok a) := ⟨by simp, by simp⟩
@[simp] theorem proper_panic : Proper (Res.panic : Res α) := ⟨by simp, by simp⟩
@[simp] theorem proper_nf : Proper (Res.err .itemNotFound : Res α) := ⟨by simp, by simp⟩
@[simp] theorem proper_ex : Proper (Res.err .itemExists : Res α) := ⟨by simp, by simp⟩
@[simp] theorem proper_num : Proper (Res.err .num : Res α) := ⟨by simp, by simp⟩
@[simp] theorem proper_msg (m : Bytes) : Proper (Res.err (.msg m) : Res α) := ⟨by simp, by simp⟩

theorem readSlice_other (i : Bytes) : (∃ l r, readSlice i = (.ok l, r)) ∨
    (∃ r, readSlice i = (.err .io, r)) ∨ (∃ r, readSlice i = (.err .bufferFull, r)) := by
  unfold readSlice
  cases splitLine i with
  | none => dsimp only; split <;> simp
  | some q => dsimp only; split <;> simp

theorem line_iff {f : Bytes → Rd β} {i r : Bytes} {x : Res β} (hx : Proper x) :
    (readSlice >>= f) i = (x, r) ↔ ∃ l r', Reply i l r' ∧ f l r' = (x, r) := by
  constructor
  · intro h
    rcases readSlice_other i with ⟨l, r', hl⟩ | ⟨r', hl⟩ | ⟨r', hl⟩
    · rw [Rd.bind_of_ok hl] at h
      exact ⟨l, r', readSlice_iff.1 hl, h⟩
    · rw [Rd.bind_of_err hl] at h
      simp only [Prod.mk.injEq] at h
      exact absurd h.1.symm hx.1
    · rw [Rd.bind_of_err hl] at h
      simp only [Prod.mk.injEq] at h
      exact absurd h.1.symm hx.2
  · rintro ⟨l, r', hl, h⟩
    rw [Rd.bind_of_ok (readSlice_iff.2 hl)]
    exact h

theorem full_iff {n : Nat} {f : Bytes → Rd β} {i r : Bytes} {x : Res β} (hx : Proper x) :
    (readFull n >>= f) i = (x, r) ↔ ∃ b r', i = b ++ r' ∧ b.length = n ∧ f b r' = (x, r) := by
  constructor
  · intro h
    by_cases hl : n ≤ i.length
    · have h1 : readFull n i = (.ok (i.take n), i.drop n) := by simp [readFull, hl]
      rw [Rd.bind_of_ok h1] at h
      exact ⟨_, _, (List.take_append_drop n i).symm, by simp; omega, h⟩
    · have h1 : readFull n i = (.err .io, []) := by simp [readFull, hl]
      rw [Rd.bind_of_err h1] at h
      simp only [Prod.mk.injEq] at h
      exact absurd h.1.symm hx.1
  · rintro ⟨b, r', hi, hb, h⟩
    rw [Rd.bind_of_ok (readFull_iff.2 ⟨hi, hb⟩)]
    exact h

/-- The header record of the model, from the bytes. -/
theorem hdr_iff {f : Bin.ResHdr → Rd β} {i r : Bytes} {x : Res β} (hx : Proper x)
    (hx' : x ≠ .err errInvalidResponse) :
    (Bin.readHdr >>= f) i = (x, r) ↔ ∃ h r', i = h ++ r' ∧ BinHead h ∧ f (Bin.ResHdr.ofBytes h) r' = (x, r) := by
  have hr : ∀ h r', BinHead h → Bin.readHdr (h ++ r') = (.ok (Bin.ResHdr.ofBytes h), r') := by
    rintro h r' ⟨h1, h2⟩
    unfold Bin.readHdr
    rw [Rd.bind_of_ok (readFull_append' 24 h r' h1), h2]
    rfl
  constructor
  · intro h
    cases hq : Bin.readHdr i with
    | mk y r' =>
      have hb : BinHead (i.take 24) ∧ y = .ok (Bin.ResHdr.ofBytes (i.take 24)) ∧ r' = i.drop 24
          ∨ y = .err .io ∨ y = .err errInvalidResponse := by
        unfold Bin.readHdr at hq
        by_cases hl : 24 ≤ i.length
        · have h1 : readFull 24 i = (.ok (i.take 24), i.drop 24) := by simp [readFull, hl]
          rw [Rd.bind_of_ok h1] at hq
          by_cases hm : (i.take 24).head? = some 0x81
          · rw [hm] at hq
            cases hq
            exact .inl ⟨⟨by simp; omega, hm⟩, rfl, rfl⟩
          · rw [Rd.ite_apply', if_pos hm] at hq
            cases hq
            exact .inr (.inr rfl)
        · have h1 : readFull 24 i = (.err .io, []) := by simp [readFull, hl]
          rw [Rd.bind_of_err h1] at hq
          cases hq
          exact .inr (.inl rfl)
      rcases hb with ⟨hb, rfl, rfl⟩ | rfl | rfl
      · rw [Rd.bind_of_ok hq] at h
        exact ⟨_, _, (List.take_append_drop 24 i).symm, hb, h⟩
      · rw [Rd.bind_of_err hq] at h
        simp only [Prod.mk.injEq] at h
        exact absurd h.1.symm hx.1
      · rw [Rd.bind_of_err hq] at h
        simp only [Prod.mk.injEq] at h
        exact absurd h.1.symm hx'
  · rintro ⟨h, r', rfl, hb, he⟩
    rw [Rd.bind_of_ok (hr h r' hb)]
    exact he

theorem lift_ok_iff {a : Res α} {f : α → Rd β} {i r : Bytes} {b : β} :
    (Rd.lift a >>= f) i = (.ok b, r) ↔ ∃ v, a = .ok v ∧ f v i = (.ok b, r) := by
  rw [Rd.bind_apply]
  cases a <;> simp

theorem lift_panic_iff {a : Res α} {f : α → Rd β} {i r : Bytes} :
    (Rd.lift a >>= f) i = (.panic, r) ↔ (a = .panic ∧ r = i) ∨ ∃ v, a = .ok v ∧ f v i = (.panic, r) := by
  rw [Rd.bind_apply]
  cases a with
  | ok v => simp
  | err e => simp
  | panic => simp [eq_comm]

theorem makeLen_ok {n : Int} {k : Nat} : makeLen n = .ok k ↔ n = k ∧ k ≤ maxAlloc := by
  unfold makeLen
  have hm : maxAlloc = 281474976710656 := by unfold maxAlloc; decide
  rw [hm]
  split
  · rename_i h
    simp only [Res.ok.injEq]
    omega
  · rename_i h
    simp only [reduceCtorEq, false_iff]
    omega

theorem makeLen_panic {n : Int} : makeLen n = .panic ↔ n < 0 ∨ (maxAlloc : Int) < n := by
  unfold makeLen
  have hm : maxAlloc = 281474976710656 := by unfold maxAlloc; decide
  rw [hm]
  split
  · simp only [reduceCtorEq, false_iff]; omega
  · simp only [true_iff]; omega

theorem readN_bind {n : Int} {f : Bytes → Rd β} :
    (readN n >>= f) = (Rd.lift (makeLen n) >>= fun k => readFull k >>= f) := by
  funext i
  unfold readN
  rw [Rd.bind_apply, Rd.bind_apply, Rd.bind_apply]
  cases makeLen n <;> rfl

theorem n_ok_iff {n : Int} {f : Bytes → Rd β} {i r : Bytes} {b : β} :
    (readN n >>= f) i = (.ok b, r)
      ↔ ∃ v r', i = v ++ r' ∧ (v.length : Int) = n ∧ v.length ≤ maxAlloc ∧ f v r' = (.ok b, r) := by
  rw [readN_bind, lift_ok_iff]
  constructor
  · rintro ⟨k, hk, h⟩
    obtain ⟨hk1, hk2⟩ := makeLen_ok.1 hk
    obtain ⟨v, r', rfl, hv, h2⟩ := (full_iff (by simp)).1 h
    subst hv
    exact ⟨v, r', rfl, hk1.symm, hk2, h2⟩
  · rintro ⟨v, r', rfl, hv, hm, h⟩
    exact ⟨v.length, makeLen_ok.2 ⟨hv.symm, hm⟩, (full_iff (by simp)).2 ⟨v, r', rfl, rfl, h⟩⟩

theorem n_panic_iff {n : Int} {f : Bytes → Rd β} {i r : Bytes} :
    (readN n >>= f) i = (.panic, r)
      ↔ ((n < 0 ∨ (maxAlloc : Int) < n) ∧ r = i)
        ∨ ∃ v r', i = v ++ r' ∧ (v.length : Int) = n ∧ v.length ≤ maxAlloc ∧ f v r' = (.panic, r) := by
  rw [readN_bind, lift_panic_iff, makeLen_panic]
  refine or_congr Iff.rfl ?_
  constructor
  · rintro ⟨k, hk, h⟩
    obtain ⟨hk1, hk2⟩ := makeLen_ok.1 hk
    obtain ⟨v, r', rfl, hv, h2⟩ := (full_iff (by simp)).1 h
    subst hv
    exact ⟨v, r', rfl, hk1.symm, hk2, h2⟩
  · rintro ⟨v, r', rfl, hv, hm, h⟩
    exact ⟨v.length, makeLen_ok.2 ⟨hv.symm, hm⟩, (full_iff (by simp)).2 ⟨v, r', rfl, rfl, h⟩⟩

theorem sliceTo_ok {b v : Bytes} {n : Int} :
    sliceTo b n = .ok v ↔ ∃ t, b = v ++ t ∧ (v.length : Int) = n := by
  unfold sliceTo
  constructor
  · intro h
    split at h
    · rename_i hn
      simp only [Res.ok.injEq] at h
      subst h
      refine ⟨b.drop n.toNat, (List.take_append_drop _ _).symm, ?_⟩
      rw [List.length_take]
      omega
    · simp at h
  · rintro ⟨t, rfl, rfl⟩
    rw [if_pos (by simp; omega)]
    simp

theorem sliceTo_panic {b : Bytes} {n : Int} : sliceTo b n = .panic ↔ n < 0 ∨ (b.length : Int) < n := by
  unfold sliceTo
  split
  · simp only [reduceCtorEq, false_iff]; omega
  · simp only [true_iff]; omega

theorem sliceFrom_ok {b v : Bytes} {n : Nat} :
    sliceFrom b n = .ok v ↔ ∃ t, b = t ++ v ∧ t.length = n := by
  unfold sliceFrom
  constructor
  · intro h
    split at h
    · rename_i hn
      simp only [Res.ok.injEq] at h
      subst h
      exact ⟨b.take n, (List.take_append_drop _ _).symm, by rw [List.length_take]; omega⟩
    · simp at h
  · rintro ⟨t, rfl, rfl⟩
    simp

theorem sliceFrom_panic {b : Bytes} {n : Nat} : sliceFrom b n = .panic ↔ b.length < n := by
  unfold sliceFrom
  split
  · simp only [reduceCtorEq, false_iff]; omega
  · simp only [true_iff]; omega

theorem slice_ok {b v : Bytes} {m n : Nat} :
    slice b m n = .ok v ↔ m ≤ n ∧ n ≤ b.length ∧ v = (b.take n).drop m := by
  unfold slice
  split
  · rename_i h; simp [h, eq_comm]
  · rename_i h
    simp only [reduceCtorEq, false_iff]
    rintro ⟨h1, h2, _⟩
    exact h ⟨h1, h2⟩

theorem slice_panic {b : Bytes} {m n : Nat} : slice b m n = .panic ↔ n < m ∨ b.length < n := by
  unfold slice
  split
  · simp only [reduceCtorEq, false_iff]; omega
  · simp only [true_iff]; omega

end Verif
