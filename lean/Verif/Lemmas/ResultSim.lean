import Verif.Lemmas.BufMem
import Verif.Client.Result
import Verif.Lemmas.Segmented
/-!
The readers on memory (`Client/Result.lean`) against those on values (`Client/Segmented.lean`): a relational logic.
-/

namespace Verif
namespace Mem
open Props

variable {α β γ δ : Type}

/-- Two results agree. -/
def Match (R : α → β → Prop) : Res α → Res β → Prop
  | .ok a, .ok b => R a b
  | .err e, .err e' => e = e'
  | .panic, .panic => True
  | _, _ => False

/-- `y` on memory does what `x` does on values, if the memory satisfies `P` before; the results and the memory afterwards
satisfy `R`, and nothing but the buffer and the header is overwritten. -/
def MSim (A H : Nat) (P : Memory → Prop) (x : Crd α) (y : Mrd β) (R : α → β → Memory → Prop) : Prop :=
  ∀ c, Ok A H c → P c.mem →
    (y c).2.sock = (x c.sock).2 ∧ Ok A H (y c).2 ∧ Frame A H c.mem (y c).2.mem
      ∧ Match (fun a b => R a b (y c).2.mem) (x c.sock).1 (y c).1

variable {A H : Nat} {P : Memory → Prop}

theorem MSim.bind {x : Crd α} {y : Mrd β} {R : α → β → Memory → Prop} {f : α → Crd γ} {g : β → Mrd δ}
    {S : γ → δ → Memory → Prop} (h : MSim A H P x y R) (hf : ∀ a b, MSim A H (R a b) (f a) (g b) S) :
    MSim A H P (x >>= f) (y >>= g) S := by
  intro c hc hp
  obtain ⟨h1, h2, h3, h4⟩ := h c hc hp
  rw [Crd.bind_apply, Mrd.bind_apply]
  cases hx : x c.sock with
  | mk r s =>
    cases hy : y c with
    | mk q c' =>
      rw [hx, hy] at h4; rw [hx, hy] at h1; rw [hy] at h2 h3
      cases r with
      | ok a =>
        cases q with
        | ok b =>
          have h1' : c'.sock = s := h1
          obtain ⟨i1, i2, i3, i4⟩ := hf a b c' h2 h4
          rw [h1'] at i1 i4
          exact ⟨i1, i2, h3.trans i3, i4⟩
        | err e => exact h4.elim
        | panic => exact h4.elim
      | err e =>
        cases q with
        | ok b => exact h4.elim
        | err e' => exact ⟨h1, h2, h3, h4⟩
        | panic => exact h4.elim
      | panic =>
        cases q with
        | ok b => exact h4.elim
        | err e => exact h4.elim
        | panic => exact ⟨h1, h2, h3, trivial⟩

theorem Match.mono {R S : α → β → Prop} {r : Res α} {q : Res β} (h : Match R r q) (hi : ∀ a b, R a b → S a b) :
    Match S r q := by
  cases r <;> cases q <;> first | exact h.elim | exact hi _ _ h | exact h

theorem MSim.mono {Q : Memory → Prop} {x : Crd α} {y : Mrd β} {R S : α → β → Memory → Prop} (h : MSim A H P x y R)
    (hp : ∀ m, Q m → P m) (hi : ∀ a b m, R a b m → S a b m) : MSim A H Q x y S := by
  intro c hc hq
  obtain ⟨h1, h2, h3, h4⟩ := h c hc (hp _ hq)
  exact ⟨h1, h2, h3, h4.mono fun a b => hi a b _⟩

theorem MSim.pre {Q : Memory → Prop} {x : Crd α} {y : Mrd β} {R : α → β → Memory → Prop} (h : MSim A H P x y R)
    (hp : ∀ m, Q m → P m) : MSim A H Q x y R := h.mono hp fun _ _ _ => id

theorem MSim.post {x : Crd α} {y : Mrd β} {R S : α → β → Memory → Prop} (h : MSim A H P x y R)
    (hi : ∀ a b m, R a b m → S a b m) : MSim A H P x y S := h.mono (fun _ => id) hi

theorem msim_lift {r : Res α} {q : Res β} {R : α → β → Memory → Prop}
    (h : ∀ m, P m → Match (fun a b => R a b m) r q) : MSim A H P (Crd.lift r) (Mrd.lift q) R :=
  fun c hc hp => ⟨rfl, hc, Frame.refl _ _ _, h _ hp⟩

theorem msim_pure {a : α} {b : β} {R : α → β → Memory → Prop} (h : ∀ m, P m → R a b m) :
    MSim A H P (pure a) (pure b) R := fun c hc hp => ⟨rfl, hc, Frame.refl _ _ _, h _ hp⟩

theorem msim_fail {e : Err} {R : α → β → Memory → Prop} : MSim A H P (Crd.fail e) (Mrd.fail e) R :=
  fun c hc _ => ⟨rfl, hc, Frame.refl _ _ _, rfl⟩

theorem msim_ite {p : Prop} [Decidable p] {x x' : Crd α} {y y' : Mrd β} {R : α → β → Memory → Prop}
    (h : MSim A H P x y R) (h' : MSim A H P x' y' R) : MSim A H P (if p then x else x') (if p then y else y') R := by
  split <;> assumption

theorem msim_view {s : Slice} {a : Bytes} {x : Crd α} {g : Bytes → Mrd β} {R : α → β → Memory → Prop}
    (hs : ∀ m, P m → s.bytes m = a) (h : MSim A H P x (g a) R) : MSim A H P x (view s >>= g) R := by
  intro c hc hp
  have e : (view s >>= g) c = g a c := by
    rw [Mrd.bind_apply]
    show g (s.bytes c.mem) c = _
    rw [hs _ hp]
  rw [e]
  exact h c hc hp

/-- A fact that what is new in memory and what is read cannot change. -/
def Keep (A H : Nat) (P : Memory → Prop) : Prop := ∀ m m', Frame A H m m' → P m → P m'

theorem MSim.keep {x : Crd α} {y : Mrd β} {R : α → β → Memory → Prop} {Q : Memory → Prop} (h : MSim A H P x y R)
    (hk : Keep A H Q) : MSim A H (fun m => P m ∧ Q m) x y (fun a b m => R a b m ∧ Q m) := by
  intro c hc hp
  obtain ⟨h1, h2, h3, h4⟩ := h c hc hp.1
  exact ⟨h1, h2, h3, h4.mono fun a b hr => ⟨hr, hk _ _ h3 hp.2⟩⟩

theorem msim_fix {x : Crd α} {y : Mrd β} {R : α → β → Memory → Prop}
    (h : ∀ N, MSim A H (fun m => P m ∧ N = m.length) x y R) : MSim A H P x y R :=
  fun c hc hp => h _ c hc ⟨hp, rfl⟩

/-- A slice of the buffer with contents `x`. -/
structure At (A : Nat) (b : Slice) (x : Bytes) (m : Memory) : Prop where
  arr : b.arr = A
  lt : A < m.length
  bytes : b.bytes m = x
  len : b.len = x.length

theorem msim_readSlice (hk : Keep A H P) :
    MSim A H P Bufio.readSlice readSlice (fun x b m => At A b x m ∧ P m) := by
  intro c hc hp
  obtain ⟨h1, h2, h3, h4⟩ := sliceLoop_sim 0 c hc
  have harr : ∀ s, (sliceLoop 0 c).1 = .line s → s.arr = A := by
    have key : ∀ (k : Nat) (c : MSock), Ok A H c → ∀ s, (sliceLoop k c).1 = .line s → s.arr = A := by
      intro k c hc
      fun_induction sliceLoop k c with
      | case1 s c l r hs => intro s' e; cases e; exact hc.arr
      | case2 s c hs hf => intro s' e; cases e
      | case3 s c hs hf hn => intro s' e; cases e
      | case4 s c hs hf hn ih => exact ih (fill_spec hc (by omega)).2.1
    exact key 0 c hc
  unfold readSlice Bufio.readSlice
  cases hx : Bufio.sliceLoop 0 c.sock with
  | mk l s =>
    cases hy : sliceLoop 0 c with
    | mk q c' =>
      rw [hx, hy] at h1; rw [hx, hy] at h2; rw [hy] at h3 h4 harr
      cases l with
      | line b =>
        cases q with
        | line t => exact ⟨h2, h3, h4.frame, ⟨harr t rfl, h3.la, h1.1, h1.2⟩, hk _ _ h4.frame hp⟩
        | ended => exact h1.elim
        | full => exact h1.elim
      | ended b =>
        cases q with
        | line t => exact h1.elim
        | ended => exact ⟨h2, h3, h4.frame, rfl⟩
        | full => exact h1.elim
      | full b =>
        cases q with
        | line t => exact h1.elim
        | ended => exact h1.elim
        | full => exact ⟨h2, h3, h4.frame, rfl⟩

/-- A whole array that is new, with contents `x`. -/
structure New (A H N : Nat) (s : Slice) (x : Bytes) (m : Memory) : Prop where
  ge : N ≤ s.arr
  lt : s.arr < m.length
  nA : s.arr ≠ A
  nH : s.arr ≠ H
  all : array m s.arr = x
  off : s.off = 0
  len : s.len = x.length
  cap : s.cap = x.length

theorem New.bytes {N : Nat} {s : Slice} {x : Bytes} {m : Memory} (h : New A H N s x m) : s.bytes m = x := by
  unfold Slice.bytes
  rw [h.all, h.off, h.len, List.drop_zero, List.take_length]

theorem keep_new (N : Nat) (s : Slice) (x : Bytes) : Keep A H (New A H N s x) := by
  intro m m' hf h
  refine ⟨h.ge, Nat.lt_of_lt_of_le h.lt hf.len, h.nA, h.nH, ?_, h.off, h.len, h.cap⟩
  rw [hf.same _ h.lt h.nA h.nH, h.all]

theorem keep_and {Q : Memory → Prop} (h : Keep A H P) (h' : Keep A H Q) : Keep A H (fun m => P m ∧ Q m) :=
  fun m m' hf hp => ⟨h m m' hf hp.1, h' m m' hf hp.2⟩

theorem keep_true : Keep A H (fun _ => True) := fun _ _ _ _ => trivial

theorem keep_le (N : Nat) : Keep A H (fun m => N ≤ m.length) := fun _ _ hf h => Nat.le_trans h hf.len

theorem frame_append (m : Memory) (x : Bytes) : Frame A H m (m ++ [x]) :=
  ⟨by simp, fun a ha _ _ => array_append m x a ha⟩

theorem Ok.alloc {c : MSock} (h : Ok A H c) (x : Bytes) :
    Ok A H { c with mem := c.mem ++ [x] } ∧ ({ c with mem := c.mem ++ [x] } : MSock).sock = c.sock := by
  have l : (c.mem ++ [x]).length = c.mem.length + 1 := by simp
  refine ⟨⟨h.arr, h.hdr, h.ne, ?_, ?_, ?_, ?_, h.rw, h.w⟩, ?_⟩
  · show A < (c.mem ++ [x]).length; have := h.la; omega
  · show H < (c.mem ++ [x]).length; have := h.lh; omega
  · show (array (c.mem ++ [x]) A).length = _; rw [array_append _ _ _ h.la]; exact h.len
  · show (array (c.mem ++ [x]) H).length = _; rw [array_append _ _ _ h.lh]; exact h.lenH
  · simp only [MSock.sock, h.arr]
    rw [array_append _ _ _ h.la]

theorem msim_alloc {bs : Bytes} {K : Nat} {x : Crd α} {g : Slice → Mrd β} {R : α → β → Memory → Prop} {Q : Memory → Prop}
    (hK : ∀ m, P m → K ≤ m.length) (hQ : ∀ m, P m → Q (m ++ [bs]))
    (h : ∀ s, MSim A H (fun m => New A H K s bs m ∧ Q m) x (g s) R) : MSim A H P x (alloc bs >>= g) R := by
  intro c hc hp
  obtain ⟨o1, o2⟩ := hc.alloc bs
  obtain ⟨i1, i2, i3, i4⟩ := h { arr := c.mem.length, off := 0, len := bs.length, cap := bs.length }
    { c with mem := c.mem ++ [bs] } o1
    ⟨⟨hK _ hp, by simp, Nat.ne_of_gt hc.la, Nat.ne_of_gt hc.lh, array_new _ _, rfl, rfl, rfl⟩, hQ _ hp⟩
  rw [o2] at i1 i4
  exact ⟨i1, i2, (frame_append _ _).trans i3, i4⟩

theorem msim_readNew {n K : Nat} (hk : Keep A H P) (hK : ∀ m, P m → K ≤ m.length) :
    MSim A H P (Bufio.readFull n) (readNew n) (fun x s m => New A H K s x m ∧ x.length = n ∧ P m) := by
  intro c hc hp
  obtain ⟨o1, o2⟩ := hc.alloc (List.replicate n 0)
  have ha : array (c.mem ++ [List.replicate n 0]) c.mem.length = List.replicate n (0 : UInt8) := array_new _ _
  have hs := fullLoop_sim n c.mem.length 0 n { c with mem := c.mem ++ [List.replicate n 0] } o1 (Nat.ne_of_gt hc.la)
    (by simp) (by show 0 + n ≤ (array (c.mem ++ [List.replicate n 0]) c.mem.length).length; rw [ha]; simp) (Nat.le_refl _)
  rw [o2, List.take_zero] at hs
  obtain ⟨h1, h2, h3, h4⟩ := hs
  have hf : Frame A H c.mem (fullLoop n c.mem.length 0 n { c with mem := c.mem ++ [List.replicate n 0] }).2.mem := by
    refine ⟨?_, fun a hlt hA hH => ?_⟩
    · rw [h3.len]; simp
    · rw [h3.same a hA (Nat.ne_of_lt hlt)]; exact array_append _ _ _ hlt
  have e : readNew n c = match fullLoop n c.mem.length 0 n { c with mem := c.mem ++ [List.replicate n 0] } with
      | (.ok _, c') =>
        (.ok { arr := c.mem.length, off := 0, len := (List.replicate n (0 : UInt8)).length,
               cap := (List.replicate n (0 : UInt8)).length }, c')
      | (.err e, c') => (.err e, c')
      | (.panic, c') => (.panic, c') := by
    unfold readNew
    rw [Mrd.bind_apply]
    show (Mrd.bind _ _ : Mrd Slice) _ = _
    unfold Mrd.bind
    dsimp only
    rcases fullLoop n c.mem.length 0 n { c with mem := c.mem ++ [List.replicate n 0] } with ⟨r, c'⟩
    cases r <;> rfl
  rw [e]
  have ef : (Bufio.readFull n c.sock) = Bufio.fullLoop n [] c.sock := rfl
  rw [ef]
  cases hq : fullLoop n c.mem.length 0 n { c with mem := c.mem ++ [List.replicate n 0] } with
  | mk r c' =>
    rw [hq] at h1 h2 h3 h4 hf
    rcases h4 with ⟨er, q1, q2⟩ | ⟨b, q1, q2, q3⟩
    · have q2' : r = .err er := q2
      subst q2'
      exact ⟨h1, h2, hf, by rw [q1]; rfl⟩
    · have q2' : r = .ok () := q2
      subst q2'
      have hl : (array c'.mem c.mem.length).length = n := by
        rw [h3.lens]; show (array (c.mem ++ [List.replicate n 0]) c.mem.length).length = n; rw [ha]; simp
      have q3' : (array c'.mem c.mem.length).take (0 + n) = b := q3
      rw [Nat.zero_add, List.take_of_length_le (by omega)] at q3'
      have hbl : b.length = n := by rw [← q3']; exact hl
      refine ⟨h1, h2, hf, ?_⟩
      rw [q1]
      refine ⟨⟨hK _ hp, ?_, Nat.ne_of_gt hc.la, Nat.ne_of_gt hc.lh, q3', rfl, ?_, ?_⟩, hbl, hk _ _ hf hp⟩
      · show c.mem.length < c'.mem.length
        rw [h3.len]; simp
      · show (List.replicate n (0 : UInt8)).length = b.length; simp [hbl]
      · show (List.replicate n (0 : UInt8)).length = b.length; simp [hbl]

theorem msim_readN {n : Int} {K : Nat} (hk : Keep A H P) (hK : ∀ m, P m → K ≤ m.length) :
    MSim A H P (Bufio.readN n) (readN n) (fun x s m => New A H K s x m ∧ (x.length : Int) = n ∧ P m) := by
  unfold Bufio.readN readN
  refine MSim.bind (R := fun (a b : Nat) m => (a = b ∧ (a : Int) = n) ∧ P m) (msim_lift fun m hp => ?_) fun a b => ?_
  · cases h : makeLen n with
    | ok k =>
      refine ⟨⟨rfl, ?_⟩, hp⟩
      unfold makeLen at h
      split at h
      · cases h; omega
      · cases h
    | err e => rfl
    | panic => trivial
  · intro c hc hp
    obtain ⟨⟨rfl, hn⟩, hp⟩ := hp
    have key : MSim A H P (Bufio.readFull a) (readNew a) (fun x s m => New A H K s x m ∧ (x.length : Int) = n ∧ P m) :=
      (msim_readNew hk hK).post fun x s m hr => ⟨hr.1, by rw [hr.2.1]; exact hn, hr.2.2⟩
    exact key c hc hp

theorem msim_readHdr (hk : Keep A H P) :
    MSim A H P Seg.Bin.readHdr Bin.readHdr (fun a b m => a = b ∧ P m) := by
  unfold Seg.Bin.readHdr Bin.readHdr
  refine MSim.bind (R := fun a b m => a = b ∧ P m) ?_ fun a b => ?_
  · intro c hc hp
    have hs := fullLoop_sim 24 H 0 24 c hc (Ne.symm hc.ne) hc.lh (by rw [hc.lenH]; exact Nat.le_refl _) (Nat.le_refl _)
    rw [List.take_zero] at hs
    obtain ⟨h1, h2, h3, h4⟩ := hs
    have hf : Frame A H c.mem (fullLoop 24 H 0 24 c).2.mem :=
      ⟨Nat.le_of_eq h3.len.symm, fun a _ hA hH => h3.same a hA hH⟩
    have e : readHdrBuf c = match fullLoop 24 H 0 24 c with
        | (.ok _, c') => (.ok ((array c'.mem c'.hdr).take 24), c')
        | (.err e, c') => (.err e, c')
        | (.panic, c') => (.panic, c') := by
      unfold readHdrBuf
      show (Mrd.bind _ _ : Mrd Bytes) _ = _
      unfold Mrd.bind
      dsimp only
      rw [hc.hdr]
      rcases fullLoop 24 H 0 24 c with ⟨r, c'⟩
      cases r <;> rfl
    rw [e]
    have ef : (Bufio.readFull 24 c.sock) = Bufio.fullLoop 24 [] c.sock := rfl
    rw [ef]
    cases hq : fullLoop 24 H 0 24 c with
    | mk r c' =>
      rw [hq] at h1 h2 h3 h4 hf
      rcases h4 with ⟨er, q1, q2⟩ | ⟨b, q1, q2, q3⟩
      · have q2' : r = .err er := q2
        subst q2'
        exact ⟨h1, h2, hf, by rw [q1]; rfl⟩
      · have q2' : r = .ok () := q2
        subst q2'
        refine ⟨h1, h2, hf, ?_⟩
        rw [q1]
        refine ⟨?_, hk _ _ hf hp⟩
        have q3' : (array c'.mem H).take (0 + 24) = b := q3
        rw [← q3', show c'.hdr = H from h2.hdr]
  · intro c hc hp
    obtain ⟨rfl, hp⟩ := hp
    have key : MSim A H P (if a.head? ≠ some 0x81 then Crd.fail errInvalidResponse else pure (Verif.Bin.ResHdr.ofBytes a))
        (if a.head? ≠ some 0x81 then Mrd.fail errInvalidResponse else pure (Verif.Bin.ResHdr.ofBytes a))
        (fun a b m => a = b ∧ P m) := msim_ite msim_fail (msim_pure fun m hp => ⟨rfl, hp⟩)
    exact key c hc hp

theorem msim_pre_eq {a b : α} {x : α → Crd γ} {y : α → Mrd δ} {R : γ → δ → Memory → Prop}
    (h : MSim A H P (x a) (y a) R) : MSim A H (fun m => a = b ∧ P m) (x a) (y b) R := by
  intro c hc hp
  obtain ⟨rfl, hp⟩ := hp
  exact h c hc hp

end Mem
end Verif
