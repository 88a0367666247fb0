import Verif.Lemmas.ResultSim
import Verif.Spec.Result
import Verif.Props.ClientPanics
/-!
Every reader of `Client/Result.lean` simulates that of `Client/Segmented.lean`.
-/

namespace Verif
namespace Mem
open Props

variable {α β γ δ : Type} {A H : Nat} {P : Memory → Prop}

/-- `b` is the item `a` in memory, in arrays made since there were `N`, of shape `Sh`. -/
structure Gives (A H N : Nat) (Sh : Memory → MItem → Prop) (a : Item) (b : MItem) (m : Memory) : Prop where
  flat : b.flat m = a
  valid : b.Valid m
  arrs : ∀ x ∈ Spec.arrays b, N ≤ x ∧ x < m.length ∧ x ≠ A ∧ x ≠ H
  shape : Sh m b

/-- A shape that depends on the arrays of the item only. -/
def Shapely (Sh : Memory → MItem → Prop) : Prop :=
  ∀ m m' b, (∀ x ∈ Spec.arrays b, array m' x = array m x) → Sh m b → Sh m' b

theorem value_mem (b : MItem) : b.value.arr ∈ Spec.arrays b := by simp [Spec.arrays]
theorem flags_mem {b : MItem} {f : Slice} (h : b.flags = some f) : f.arr ∈ Spec.arrays b := by simp [Spec.arrays, h]

theorem own_shapely : Shapely Spec.OwnArrays := by
  intro m m' b h hs
  refine ⟨?_, fun f hf => ?_⟩
  · rw [h _ (value_mem b)]; exact hs.value
  · rw [h _ (flags_mem hf)]; exact hs.flags f hf

theorem one_shapely : Shapely Spec.OneArray := by
  intro m m' b h hs
  refine ⟨?_, ?_⟩
  · rw [h _ (value_mem b)]; exact hs.flags
  · rw [h _ (value_mem b)]; exact hs.value

theorem flat_congr {m m' : Memory} {b : MItem} (h : ∀ x ∈ Spec.arrays b, array m' x = array m x) : b.flat m' = b.flat m := by
  unfold MItem.flat
  rw [bytes_congr (h _ (value_mem b))]
  cases hf : b.flags with
  | none => rfl
  | some f => simp only [Option.map_some]; rw [bytes_congr (h _ (flags_mem hf))]

theorem valid_congr {m m' : Memory} {b : MItem} (h : ∀ x ∈ Spec.arrays b, array m' x = array m x) (hv : b.Valid m) :
    b.Valid m' := by
  refine ⟨⟨hv.value.len, ?_⟩, fun f hf => ⟨(hv.flags f hf).len, ?_⟩⟩
  · rw [h _ (value_mem b)]; exact hv.value.cap
  · rw [h _ (flags_mem hf)]; exact (hv.flags f hf).cap

theorem keep_gives {N : Nat} {Sh : Memory → MItem → Prop} (hS : Shapely Sh) (a : Item) (b : MItem) :
    Keep A H (Gives A H N Sh a b) := by
  intro m m' hf h
  have hs : ∀ x ∈ Spec.arrays b, array m' x = array m x := fun x hx =>
    hf.same x (h.arrs x hx).2.1 (h.arrs x hx).2.2.1 (h.arrs x hx).2.2.2
  exact ⟨(flat_congr hs).trans h.flat, valid_congr hs h.valid,
    fun x hx => ⟨(h.arrs x hx).1, Nat.lt_of_lt_of_le (h.arrs x hx).2.1 hf.len, (h.arrs x hx).2.2⟩, hS _ _ _ hs h.shape⟩

/-- A look at a line, then what to do with it. -/
theorem msim_line {f : Bytes → Crd γ} {g : Slice → Mrd δ} {S : γ → δ → Memory → Prop} (hk : Keep A H P)
    (h : ∀ x b, MSim A H (fun m => At A b x m ∧ P m) (f x) (g b) S) :
    MSim A H P (Bufio.readSlice >>= f) (readSlice >>= g) S :=
  (msim_readSlice hk).bind h

theorem at_bytes {b : Slice} {x : Bytes} : ∀ m, At A b x m ∧ P m → b.bytes m = x := fun _ h => h.1.bytes

/-- `b[:n]` of a line. -/
theorem at_sliceTo {b : Slice} {x : Bytes} {m : Memory} (h : At A b x m) (n : Int) :
    Match (fun a s => At A s a m) (Verif.sliceTo x n) (sliceTo b n) := by
  unfold Verif.sliceTo sliceTo
  rw [h.len]
  by_cases hn : 0 ≤ n ∧ n ≤ (x.length : Int)
  · rw [if_pos hn, if_pos hn]
    refine ⟨h.arr, h.lt, ?_, ?_⟩
    · rw [← h.bytes]
      unfold Slice.bytes
      rw [List.take_take, Nat.min_eq_left (by rw [h.len]; omega)]
    · show n.toNat = (x.take n.toNat).length
      rw [List.length_take]; omega
  · rw [if_neg hn, if_neg hn]; trivial

theorem at_sliceFrom {b : Slice} {x : Bytes} {m : Memory} (h : At A b x m) (n : Nat) :
    Match (fun a s => At A s a m) (Verif.sliceFrom x n) (sliceFrom b n) := by
  unfold Verif.sliceFrom sliceFrom
  rw [h.len]
  by_cases hn : n ≤ x.length
  · rw [if_pos hn, if_pos hn]
    refine ⟨h.arr, h.lt, ?_, ?_⟩
    · have : x.drop n = (b.bytes m).drop n := by rw [h.bytes]
      rw [this]
      unfold Slice.bytes
      dsimp only
      rw [List.drop_take, List.drop_drop, h.len]
    · show x.length - n = (x.drop n).length
      rw [List.length_drop]
  · rw [if_neg hn, if_neg hn]; trivial

theorem msim_sliceTo {b : Slice} {x : Bytes} {n : Int} :
    MSim A H (fun m => At A b x m ∧ P m) (Crd.lift (Verif.sliceTo x n)) (Mrd.lift (sliceTo b n))
      (fun a s m => At A s a m ∧ P m) :=
  msim_lift fun m hp => (at_sliceTo hp.1 n).mono fun a s h => ⟨h, hp.2⟩

theorem msim_eq {r : Res α} {R : α → α → Memory → Prop} (h : ∀ m, P m → ∀ a, R a a m) :
    MSim A H P (Crd.lift r) (Mrd.lift r) R := msim_lift fun m hp => by
  cases r with
  | ok a => exact h m hp a
  | err e => rfl
  | panic => trivial

/-- Results without memory. -/
@[reducible] def Same (a b : α) (_ : Memory) : Prop := a = b

/-- Use what the precondition says apart from memory. -/
theorem msim_fact {q : Prop} {x : Crd γ} {y : Mrd δ} {S : γ → δ → Memory → Prop} (hq : ∀ m, P m → q)
    (h : q → MSim A H P x y S) : MSim A H P x y S := fun c hc hp => h (hq _ hp) c hc hp

theorem at_len {b : Slice} {x : Bytes} : ∀ m, At A b x m ∧ P m → b.len = x.length := fun _ h => h.1.len

/-- Prove the simulation of a reader that looks at one line only. -/
macro "oneline" : tactic => `(tactic| (
  refine msim_line keep_true fun x b => ?_
  refine msim_view at_bytes ?_
  repeat' (first | with_reducible exact msim_pure fun _ _ => rfl | with_reducible exact msim_fail
                 | with_reducible apply msim_ite)))

theorem sim_delete (k : Bytes) : MSim A H (fun _ => True) (Seg.Text.delete k) (Text.delete k) Same := by
  unfold Seg.Text.delete Text.delete; oneline
theorem sim_touch (k : Bytes) (e : Int) : MSim A H (fun _ => True) (Seg.Text.touch k e) (Text.touch k e) Same := by
  unfold Seg.Text.touch Text.touch; oneline
theorem sim_add (i : Item) : MSim A H (fun _ => True) (Seg.Text.add i) Text.add Same := by
  unfold Seg.Text.add Text.add; oneline
theorem sim_replace (i : Item) : MSim A H (fun _ => True) (Seg.Text.replace i) Text.replace Same := by
  unfold Seg.Text.replace Text.replace; oneline
theorem sim_set (i : Item) : MSim A H (fun _ => True) (Seg.Text.set i) Text.set Same := by
  unfold Seg.Text.set Text.set; oneline
  refine msim_view at_bytes ?_
  exact msim_fail
theorem sim_mset (i : Item) : MSim A H (fun _ => True) (Seg.Meta.set i) Meta.set Same := by
  unfold Seg.Meta.set Meta.set; oneline
theorem sim_mdelete (k : Bytes) : MSim A H (fun _ => True) (Seg.Meta.delete k) (Meta.delete k) Same := by
  unfold Seg.Meta.delete Meta.delete; oneline
theorem sim_mtouch (k : Bytes) (e : Int) : MSim A H (fun _ => True) (Seg.Meta.touch k e) (Meta.touch k e) Same := by
  unfold Seg.Meta.touch Meta.touch; oneline
theorem sim_version : MSim A H (fun _ => True) Seg.Text.version Text.version Same := by
  unfold Seg.Text.version Text.version; oneline

theorem sim_incr (o k : Bytes) (d : Int) :
    MSim A H (fun _ => True) (Seg.Text.incrOrDecr o k d) (Text.incrOrDecr o k d) Same := by
  unfold Seg.Text.incrOrDecr Text.incrOrDecr
  oneline
  refine msim_fact at_len fun hl => ?_
  rw [hl]
  refine msim_sliceTo.bind fun a s => ?_
  exact msim_view at_bytes (msim_eq fun _ _ _ => rfl)

theorem sim_flush : MSim A H (fun _ => True) Seg.Text.flush Text.flush Same := by
  unfold Seg.Text.flush Text.flush
  oneline
  refine msim_fact at_len fun hl => ?_
  rw [hl]
  refine msim_sliceTo.bind fun a s => ?_
  refine msim_view at_bytes ?_
  exact msim_fail

theorem new_sliceTo {N : Nat} {buf : Slice} {a : Bytes} {size : Int} (ha : (a.length : Int) = size + 2) :
    MSim A H (fun m => New A H N buf a m ∧ P m) (Crd.lift (Verif.sliceTo a size)) (Mrd.lift (sliceTo buf size))
      (fun v s m => (v = a.take size.toNat ∧ s = { buf with len := size.toNat } ∧ 0 ≤ size) ∧ New A H N buf a m ∧ P m) :=
  msim_lift fun m hp => by
    unfold Verif.sliceTo sliceTo
    rw [hp.1.len]
    by_cases hn : 0 ≤ size ∧ size ≤ (a.length : Int)
    · rw [if_pos hn, if_pos hn]; exact ⟨⟨rfl, rfl, hn.1⟩, hp⟩
    · rw [if_neg hn, if_neg hn]; trivial

theorem msim_pull {q : Prop} {x : Crd γ} {y : Mrd δ} {S : γ → δ → Memory → Prop}
    (h : q → MSim A H P x y S) : MSim A H (fun m => q ∧ P m) x y S := fun c hc hp => h hp.1 c hc hp.2

theorem new_value {N : Nat} {buf : Slice} {a : Bytes} {size : Int} {m : Memory} (hb : New A H N buf a m)
    (ha : (a.length : Int) = size + 2) (hs : 0 ≤ size) :
    ({ buf with len := size.toNat } : Slice).bytes m = a.take size.toNat
      ∧ ({ buf with len := size.toNat } : Slice).Valid m := by
  refine ⟨?_, ⟨?_, ?_⟩⟩
  · show ((array m buf.arr).drop buf.off).take size.toNat = _
    rw [hb.all, hb.off, List.drop_zero]
  · show size.toNat ≤ buf.cap
    rw [hb.cap]; omega
  · show buf.off + buf.cap ≤ (array m buf.arr).length
    rw [hb.all, hb.off, hb.cap]; omega

theorem gives_own {N K : Nat} {f buf : Slice} {fl a : Bytes} {size : Int} {m : Memory} {key server : Bytes} {exp : Int}
    {cas : Nat} (hf : New A H N f fl m) (hfl : fl.length = 4) (hb : New A H K buf a m) (hK : f.arr < K)
    (ha : (a.length : Int) = size + 2) (hs : 0 ≤ size) :
    Gives A H N Spec.OwnArrays
      { key := key, value := a.take size.toNat, flags := some fl, expiration := exp, cas := cas, server := server }
      { key := key, value := { buf with len := size.toNat }, flags := some f, expiration := exp, cas := cas,
        server := server } m := by
  obtain ⟨v1, v2⟩ := new_value hb ha hs
  have g1 := hb.ge
  have g2 := hf.ge
  refine ⟨?_, ⟨v2, ?_⟩, ?_, ⟨⟨hb.off, ?_, ?_⟩, ?_⟩⟩
  · unfold MItem.flat
    dsimp only
    rw [v1, Option.map_some, hf.bytes]
  · intro f' e
    cases e
    exact ⟨by rw [hf.len, hf.cap]; exact Nat.le_refl _, by rw [hf.all, hf.off, hf.cap]; omega⟩
  · intro x hx
    simp only [Spec.arrays, Option.toList_some, List.map_cons, List.map_nil, List.mem_cons, List.not_mem_nil, or_false] at hx
    rcases hx with rfl | rfl
    · exact ⟨by omega, hb.lt, hb.nA, hb.nH⟩
    · exact ⟨g2, hf.lt, hf.nA, hf.nH⟩
  · show buf.cap = size.toNat + 2
    rw [hb.cap]; omega
  · show (array m buf.arr).length = size.toNat + 2
    rw [hb.all]; omega
  · intro f' e
    cases e
    refine ⟨?_, hf.off, by rw [hf.len]; exact hfl, by rw [hf.cap]; exact hfl, by rw [hf.all]; exact hfl⟩
    show f.arr ≠ buf.arr
    omega

theorem gives_own_none {N : Nat} {buf : Slice} {a : Bytes} {size : Int} {m : Memory} {key server : Bytes} {exp : Int}
    {cas : Nat} (hb : New A H N buf a m) (ha : (a.length : Int) = size + 2) (hs : 0 ≤ size) :
    Gives A H N Spec.OwnArrays
      { key := key, value := a.take size.toNat, flags := none, expiration := exp, cas := cas, server := server }
      { key := key, value := { buf with len := size.toNat }, flags := none, expiration := exp, cas := cas,
        server := server } m := by
  obtain ⟨v1, v2⟩ := new_value hb ha hs
  have g1 := hb.ge
  refine ⟨?_, ⟨v2, fun f' e => by cases e⟩, ?_, ⟨⟨hb.off, ?_, ?_⟩, fun f' e => by cases e⟩⟩
  · unfold MItem.flat
    dsimp only
    rw [v1]; rfl
  · intro x hx
    simp only [Spec.arrays, Option.toList_none, List.map_nil, List.mem_cons, List.not_mem_nil, or_false] at hx
    subst hx
    exact ⟨g1, hb.lt, hb.nA, hb.nH⟩
  · show buf.cap = size.toNat + 2
    rw [hb.cap]; omega
  · show (array m buf.arr).length = size.toNat + 2
    rw [hb.all]; omega

/-- Read the value of `size` bytes and CRLF, with the flags already made. -/
theorem msim_value {N : Nat} {f : Slice} {fl : Bytes} {size : Int} {g : Bytes → Crd γ} {g' : Slice → Mrd δ}
    {S : γ → δ → Memory → Prop}
    (h : ∀ a buf, (a.length : Int) = size + 2 → 0 ≤ size → MSim A H
      (fun m => New A H (f.arr + 1) buf a m ∧ New A H N f fl m) (g (a.take size.toNat)) (g' { buf with len := size.toNat }) S) :
    MSim A H (New A H N f fl)
      (do let buf ← Bufio.readN (size + 2); let v ← Crd.lift (Verif.sliceTo buf size); g v)
      (do let buf ← readN (size + 2); let v ← Mrd.lift (sliceTo buf size); g' v) S := by
  refine (msim_readN (K := f.arr + 1) (keep_new _ _ _) fun m hp => hp.lt).bind fun a buf => ?_
  refine MSim.pre (P := fun m => (a.length : Int) = size + 2 ∧ New A H (f.arr + 1) buf a m ∧ New A H N f fl m) ?_
    fun m hp => ⟨hp.2.1, hp.1, hp.2.2⟩
  refine msim_pull fun ha => ?_
  refine (new_sliceTo ha).bind fun v s => ?_
  refine msim_pull fun hv => ?_
  obtain ⟨rfl, rfl, hs⟩ := hv
  exact h a buf ha hs

theorem msim_value_none {N : Nat} {size : Int} {g : Bytes → Crd γ} {g' : Slice → Mrd δ} {S : γ → δ → Memory → Prop}
    (h : ∀ a buf, (a.length : Int) = size + 2 → 0 ≤ size → MSim A H
      (fun m => New A H N buf a m) (g (a.take size.toNat)) (g' { buf with len := size.toNat }) S) :
    MSim A H (fun m => N ≤ m.length)
      (do let buf ← Bufio.readN (size + 2); let v ← Crd.lift (Verif.sliceTo buf size); g v)
      (do let buf ← readN (size + 2); let v ← Mrd.lift (sliceTo buf size); g' v) S := by
  refine (msim_readN (K := N) (keep_le N) fun m hp => hp).bind fun a buf => ?_
  refine MSim.pre (P := fun m => (a.length : Int) = size + 2 ∧ New A H N buf a m ∧ N ≤ m.length) ?_
    fun m hp => ⟨hp.2.1, hp.1, hp.2.2⟩
  refine msim_pull fun ha => ?_
  refine (new_sliceTo ha).bind fun v s => ?_
  refine msim_pull fun hv => ?_
  obtain ⟨rfl, rfl, hs⟩ := hv
  exact (h a buf ha hs).pre fun m hp => hp.1

theorem sim_textGet (N : Nat) (name : Bytes) :
    MSim A H (fun m => N ≤ m.length) (Seg.Text.getReply name) (Text.getReply name) (Gives A H N Spec.OwnArrays) := by
  unfold Seg.Text.getReply Text.getReply
  refine msim_line (keep_le N) fun x b => ?_
  refine msim_view at_bytes ?_
  refine msim_ite msim_fail ?_
  refine msim_ite msim_fail ?_
  refine msim_view at_bytes ?_
  cases Scan.scanValue (x.count 32 != 3) x with
  | none => exact msim_fail
  | some q =>
    obtain ⟨key, flags, size, cas⟩ := q
    dsimp only
    refine msim_alloc (K := N) (Q := fun _ => True) (fun m hp => hp.2) (fun _ _ => trivial) fun f => ?_
    refine MSim.pre (P := New A H N f (putBE 4 flags)) ?_ fun m hp => hp.1
    refine msim_value fun a buf ha hs => ?_
    refine msim_line (keep_and (keep_new _ _ _) (keep_new _ _ _)) fun y e => ?_
    refine msim_view at_bytes ?_
    refine msim_ite msim_fail ?_
    exact msim_pure fun m hp => gives_own hp.2.2 (putBE_length 4 _) hp.2.1 (Nat.lt_succ_self _) ha hs

theorem at_append {b : Slice} {x y : Bytes} {m : Memory} (h : At A b x m) : At A b x (m ++ [y]) :=
  ⟨h.arr, by simp; have := h.lt; omega, by rw [← h.bytes]; exact bytes_congr (by rw [h.arr]; exact array_append _ _ _ h.lt),
    h.len⟩

theorem splitSlices_length (s : Slice) (ps : List Bytes) : (splitSlices s ps).length = ps.length := by
  induction ps generalizing s with
  | nil => rfl
  | cons p ps ih => simp only [splitSlices, List.length_cons, ih]

theorem parts_at {m : Memory} (ps : List Bytes) (s : Slice) (hA : s.arr = A) (hlt : A < m.length) (hne : ps ≠ [])
    (h : ((array m s.arr).drop s.off).take (joinSp ps).length = joinSp ps) (i : Nat) :
    Match (fun p t => At A t p m) (index ps i) (index (splitSlices s ps) i) := by
  induction ps generalizing s i with
  | nil => exact absurd rfl hne
  | cons p ps ih =>
    have hp : ((array m s.arr).drop s.off).take p.length = p := by
      have := congrArg (List.take p.length) h
      cases ps with
      | nil => simpa [joinSp] using h
      | cons q qs =>
        rw [List.take_take] at this
        simp only [joinSp] at this
        rw [Nat.min_eq_left (by simp only [List.length_append]; omega)] at this
        rw [this]
        simp
    cases i with
    | zero => exact ⟨hA, hlt, hp, rfl⟩
    | succ i =>
      cases ps with
      | nil => exact trivial
      | cons q qs =>
        refine ih { s with off := s.off + p.length + 1 } hA (by simp) ?_ i
        have := congrArg (List.drop (p.length + 1)) h
        rw [List.drop_take, List.drop_drop] at this
        show ((array m s.arr).drop (s.off + p.length + 1)).take _ = _
        rw [Nat.add_assoc]
        have e1 : (joinSp (p :: q :: qs)).length - (p.length + 1) = (joinSp (q :: qs)).length := by
          simp [joinSp]; omega
        have e2 : (joinSp (p :: q :: qs)).drop (p.length + 1) = joinSp (q :: qs) := by
          simp [joinSp]
        rw [e1, e2] at this
        exact this

theorem at_parts {b : Slice} {x : Bytes} {m : Memory} (h : At A b x m) (i : Nat) :
    Match (fun p t => At A t p m) (index (splitSp x) i) (index (splitSlices b (splitSp x)) i) := by
  refine parts_at _ _ h.arr h.lt (splitSp_ne_nil x) ?_ i
  rw [joinSp_splitSp]
  have := h.bytes
  unfold Slice.bytes at this
  rw [h.len] at this
  exact this

theorem msim_index {b : Slice} {x : Bytes} {i : Nat} :
    MSim A H (fun m => At A b x m ∧ P m) (Crd.lift (index (splitSp x) i))
      (Mrd.lift (index (splitSlices b (splitSp x)) i)) (fun p t m => At A t p m ∧ At A b x m ∧ P m) :=
  msim_lift fun m hp => (at_parts hp.1 i).mono fun a s h => ⟨h, hp⟩

theorem msim_right {q : Res β} {s : β} {x : Crd γ} {g : β → Mrd δ} {S : γ → δ → Memory → Prop} (hq : q = .ok s)
    (h : MSim A H P x (g s) S) : MSim A H P x (Mrd.lift q >>= g) S := by
  subst hq
  exact h

theorem sim_block (N : Nat) (b : Slice) (x : Bytes) :
    MSim A H (fun m => At A b x m ∧ N ≤ m.length) (Seg.Text.parseBlock x) (Text.parseBlock b)
      (Gives A H N Spec.OwnArrays) := by
  unfold Seg.Text.parseBlock Text.parseBlock
  refine msim_view at_bytes ?_
  dsimp only
  obtain ⟨h, t, hh⟩ : ∃ h t, splitSp x = h :: t := by
    cases e : splitSp x with
    | nil => exact absurd e (splitSp_ne_nil x)
    | cons h t => exact ⟨h, t, rfl⟩
  have h0 : index (splitSlices b (splitSp x)) 0 = .ok { arr := b.arr, off := b.off, len := h.length, cap := h.length } := by
    rw [hh]; rfl
  refine msim_right h0 ?_
  refine msim_view (a := h) (fun m hp => ?_) ?_
  · have := at_parts hp.1 0
    rw [h0] at this
    rw [hh] at this
    exact At.bytes this
  have hd : (splitSp x).head? = some h := by rw [hh]; rfl
  rw [hd]
  by_cases hv : h ≠ b!"VALUE"
  · rw [if_pos hv, if_pos (by intro e; cases e; exact hv rfl)]
    exact msim_fail
  rw [if_neg hv, if_neg (by intro e; exact hv (by intro e'; exact e (by rw [e'])))]
  refine msim_index.bind fun w2 s2 => ?_
  refine msim_view at_bytes ?_
  refine MSim.pre (P := fun m => At A b x m ∧ N ≤ m.length) ?_ fun m hp => hp.2
  refine MSim.bind (R := fun a c m => a = c ∧ At A b x m ∧ N ≤ m.length) (msim_eq fun m hp a => ⟨rfl, hp⟩) fun f f' => ?_
  refine msim_pull fun e => ?_
  subst e
  refine msim_alloc (K := N) (Q := fun m => At A b x m) (fun m hp => hp.2) (fun m hp => at_append hp.1) fun fs => ?_
  refine MSim.pre (P := fun m => At A b x m ∧ New A H N fs (putBE 4 (toUnsigned 32 f)) m) ?_ fun m hp => ⟨hp.2, hp.1⟩
  refine msim_index.bind fun w3 s3 => ?_
  rw [splitSlices_length]
  have key : ∀ (w : Bytes) (s : Slice), MSim A H
      (fun m => At A s w m ∧ At A b x m ∧ New A H N fs (putBE 4 (toUnsigned 32 f)) m)
      (do
        let size ← Crd.lift (numRes (parseInt w 64))
        let k ← Crd.lift (makeLen (size + 2))
        let s1 ← Crd.lift (index (splitSp x) 1)
        let buf ← Bufio.readFull k
        let v ← Crd.lift (Verif.sliceTo buf size)
        pure { key := s1, flags := some (putBE 4 (toUnsigned 32 f)), value := v })
      (do
        let w3 ← view s
        let size ← Mrd.lift (numRes (parseInt w3 64))
        let k ← Mrd.lift (makeLen (size + 2))
        let s1 ← Mrd.lift (index (splitSlices b (splitSp x)) 1)
        let w1 ← view s1
        let buf ← readNew k
        let v ← Mrd.lift (sliceTo buf size)
        pure { key := w1, flags := some fs, value := v })
      (Gives A H N Spec.OwnArrays) := ?_
  · refine msim_ite ?_ ?_
    · refine msim_fact at_len fun hl => ?_
      rw [hl]
      exact msim_sliceTo.bind key
    · exact MSim.bind (msim_pure fun m hp => hp) key
  intro w s
  refine msim_view at_bytes ?_
  refine MSim.pre (P := fun m => At A b x m ∧ New A H N fs (putBE 4 (toUnsigned 32 f)) m) ?_ fun m hp => hp.2
  refine MSim.bind (R := fun a c m => a = c ∧ At A b x m ∧ New A H N fs (putBE 4 (toUnsigned 32 f)) m)
    (msim_eq fun m hp a => ⟨rfl, hp⟩) fun size size' => ?_
  refine msim_pull fun e => ?_
  subst e
  refine MSim.bind (R := fun (a c : Nat) m => (a = c ∧ (a : Int) = size + 2) ∧ At A b x m
    ∧ New A H N fs (putBE 4 (toUnsigned 32 f)) m) ?_ fun k k' => ?_
  · refine msim_lift fun m hp => ?_
    cases h : makeLen (size + 2) with
    | ok k =>
      refine ⟨⟨rfl, ?_⟩, hp⟩
      unfold makeLen at h
      split at h
      · cases h; omega
      · cases h
    | err e => rfl
    | panic => trivial
  refine msim_pull fun e => ?_
  obtain ⟨rfl, hk⟩ := e
  refine msim_index.bind fun w1 s1 => ?_
  refine msim_view at_bytes ?_
  refine MSim.pre (P := New A H N fs (putBE 4 (toUnsigned 32 f))) ?_ fun m hp => hp.2.2
  refine (msim_readNew (K := fs.arr + 1) (keep_new _ _ _) fun m hp => hp.lt).bind fun a buf => ?_
  refine MSim.pre (P := fun m => a.length = k ∧ New A H (fs.arr + 1) buf a m
    ∧ New A H N fs (putBE 4 (toUnsigned 32 f)) m) ?_ fun m hp => ⟨hp.2.1, hp.1, hp.2.2⟩
  refine msim_pull fun ha => ?_
  have ha' : (a.length : Int) = size + 2 := by rw [ha]; exact hk
  refine (new_sliceTo ha').bind fun v s => ?_
  refine msim_pull fun hv => ?_
  obtain ⟨rfl, rfl, hs⟩ := hv
  exact msim_pure fun m hp => gives_own hp.2 (putBE_length 4 _) hp.1 (Nat.lt_succ_self _) ha' hs

/-- The items `bs` are `as` in memory, in separate arrays made since there were `N`. -/
structure GivesAll (A H N : Nat) (Sh : Memory → MItem → Prop) (as : List Item) (bs : List MItem) (m : Memory) : Prop where
  flat : bs.map (MItem.flat m) = as
  each : ∀ b ∈ bs, b.Valid m ∧ (∀ x ∈ Spec.arrays b, N ≤ x ∧ x < m.length ∧ x ≠ A ∧ x ≠ H) ∧ Sh m b
  apart : Spec.Distinct bs

theorem gives_nil {N : Nat} {Sh : Memory → MItem → Prop} (m : Memory) : GivesAll A H N Sh [] [] m :=
  ⟨rfl, fun b hb => (by cases hb), List.Pairwise.nil⟩

theorem keep_all {N : Nat} {Sh : Memory → MItem → Prop} (hS : Shapely Sh) (as : List Item) (bs : List MItem) :
    Keep A H (GivesAll A H N Sh as bs) := by
  intro m m' hf h
  have hs : ∀ b ∈ bs, ∀ x ∈ Spec.arrays b, array m' x = array m x := fun b hb x hx =>
    have q := (h.each b hb).2.1 x hx
    hf.same x q.2.1 q.2.2.1 q.2.2.2
  refine ⟨?_, fun b hb => ⟨valid_congr (hs b hb) (h.each b hb).1, fun x hx => ?_, hS _ _ _ (hs b hb) (h.each b hb).2.2⟩,
    h.apart⟩
  · rw [← h.flat]
    exact List.map_congr_left fun b hb => flat_congr (hs b hb)
  · have q := (h.each b hb).2.1 x hx
    exact ⟨q.1, Nat.lt_of_lt_of_le q.2.1 hf.len, q.2.2⟩

theorem gives_snoc {N K : Nat} {Sh : Memory → MItem → Prop} {as : List Item} {bs : List MItem} {a : Item} {b : MItem}
    {m : Memory} (h : GivesAll A H N Sh as bs m) (hK : ∀ c ∈ bs, ∀ x ∈ Spec.arrays c, x < K) (hN : N ≤ K)
    (hb : Gives A H K Sh a b m) : GivesAll A H N Sh (as ++ [a]) (bs ++ [b]) m := by
  refine ⟨?_, fun c hc => ?_, ?_⟩
  · rw [List.map_append, h.flat, List.map_cons, List.map_nil, hb.flat]
  · rw [List.mem_append] at hc
    rcases hc with hc | hc
    · exact h.each c hc
    · simp only [List.mem_singleton] at hc
      subst hc
      exact ⟨hb.valid, fun x hx => ⟨Nat.le_trans hN (hb.arrs x hx).1, (hb.arrs x hx).2⟩, hb.shape⟩
  · unfold Spec.Distinct
    rw [List.pairwise_append]
    refine ⟨h.apart, List.pairwise_singleton _ _, fun c hc d hd x hx hx' => ?_⟩
    simp only [List.mem_singleton] at hd
    subst hd
    have h1 := hK c hc x hx
    have h2 := (hb.arrs x hx').1
    omega

theorem msim_push {N : Nat} {Sh : Memory → MItem → Prop} (hS : Shapely Sh) {as : List Item} {bs : List MItem}
    {x : Crd Item} {y : Mrd MItem} (hx : ∀ K, MSim A H (fun m => P m ∧ K ≤ m.length) x y (Gives A H K Sh)) :
    MSim A H (fun m => P m ∧ N ≤ m.length ∧ GivesAll A H N Sh as bs m) x y
      (fun a b m => N ≤ m.length ∧ GivesAll A H N Sh (as ++ [a]) (bs ++ [b]) m) := by
  refine msim_fix fun K => ?_
  refine MSim.mono (P := fun m => (P m ∧ K ≤ m.length) ∧ N ≤ m.length ∧ GivesAll A H N Sh as bs m
    ∧ (N ≤ K ∧ ∀ c ∈ bs, ∀ x ∈ Spec.arrays c, x < K))
    ((hx K).keep (keep_and (keep_le N) (keep_and (keep_all hS as bs) fun m m' _ h => h))) ?_ ?_
  · intro m hp
    obtain ⟨⟨h1, h2, h3⟩, rfl⟩ := hp
    exact ⟨⟨h1, Nat.le_refl _⟩, h2, h3, h2, fun c hc x hx => ((h3.each c hc).2.1 x hx).2.1⟩
  · intro a b m h
    obtain ⟨h1, h2, h3, h4, h5⟩ := h
    exact ⟨h2, gives_snoc h3 h5 h4 h1⟩

theorem sim_textLoop (N n : Nat) (as : List Item) (bs : List MItem) :
    MSim A H (fun m => N ≤ m.length ∧ GivesAll A H N Spec.OwnArrays as bs m) (Seg.Text.parseLoop n as) (Text.parseLoop n bs)
      (GivesAll A H N Spec.OwnArrays) := by
  induction n generalizing as bs with
  | zero => exact msim_lift fun _ _ => trivial
  | succ n ih =>
    unfold Seg.Text.parseLoop Text.parseLoop
    refine msim_line (keep_and (keep_le N) (keep_all own_shapely as bs)) fun x b => ?_
    refine msim_view at_bytes ?_
    refine msim_ite (msim_pure fun m hp => hp.2.2) ?_
    exact (msim_push own_shapely fun K => sim_block K b x).bind fun a c => ih _ _

theorem left_eq (c : MSock) : c.left = c.sock.all.length := rfl

theorem sim_textMulti (N : Nat) (name : Bytes) (ks : List Bytes) :
    MSim A H (fun m => N ≤ m.length) (Seg.Text.getMulti name ks) (Text.getMulti name ks)
      (GivesAll A H N Spec.OwnArrays) := by
  unfold Seg.Text.getMulti Text.getMulti
  refine MSim.bind (R := GivesAll A H N Spec.OwnArrays) ?_ fun as bs => ?_
  · intro c hc hp
    exact sim_textLoop N (c.left + 1) [] [] c hc ⟨hp, gives_nil _⟩
  · refine msim_pure fun m hp => ⟨?_, fun b hb => ?_, ?_⟩
    · rw [← hp.flat, List.map_map, List.map_map]
      rfl
    · obtain ⟨b', hb', rfl⟩ := List.mem_map.1 hb
      have q := hp.each b' hb'
      exact ⟨⟨q.1.value, q.1.flags⟩, q.2.1, ⟨q.2.2.value, q.2.2.flags⟩⟩
    · unfold Spec.Distinct
      rw [List.pairwise_map]
      exact hp.apart

theorem token_flags {n : UInt8} {v : Bytes} {i j : Item} (h : Verif.Meta.readGetFlagToken n v i = .ok j)
    (hi : ∀ f, i.flags = some f → f.length = 4) : ∀ f, j.flags = some f → f.length = 4 := by
  unfold Verif.Meta.readGetFlagToken at h
  repeat' split at h
  · obtain ⟨k, _, hk⟩ := bind_ok_iff.1 h
    cases hk
    intro f e; cases e; exact putBE_length 4 _
  · obtain ⟨k, _, hk⟩ := bind_ok_iff.1 h
    cases hk; exact hi
  · obtain ⟨k, _, hk⟩ := bind_ok_iff.1 h
    cases hk; exact hi
  · cases h; exact hi
  · cases h; exact hi

theorem step_flags {st st' : Verif.Meta.HdrState} {c : UInt8} (h : Verif.Meta.hdrStep st c = .ok st')
    (hi : ∀ f, st.item.flags = some f → f.length = 4) : ∀ f, st'.item.flags = some f → f.length = 4 := by
  unfold Verif.Meta.hdrStep at h
  dsimp only at h
  repeat' split at h
  · obtain ⟨k, _, hk⟩ := bind_ok_iff.1 h
    cases hk; exact hi
  · obtain ⟨k, hr, hk⟩ := bind_ok_iff.1 h
    cases hk; exact token_flags hr hi
  · cases h; exact hi
  · obtain ⟨k, hr, hk⟩ := bind_ok_iff.1 h
    cases hk; exact token_flags hr hi
  · cases h; exact hi
  · cases h; exact hi
  · cases h; exact hi
  · cases h; exact hi

theorem scan_flags {st st' : Verif.Meta.HdrState} (x : Bytes) (h : Verif.Meta.hdrScan st x = .ok st')
    (hi : ∀ f, st.item.flags = some f → f.length = 4) : ∀ f, st'.item.flags = some f → f.length = 4 := by
  induction x generalizing st with
  | nil => cases h; exact hi
  | cons c r ih =>
    obtain ⟨k, hr, hk⟩ := bind_ok_iff.1 (show (Verif.Meta.hdrStep st c >>= fun st' => Verif.Meta.hdrScan st' r) = _ from h)
    exact ih hk (step_flags hr hi)

theorem msim_sliceFrom {b : Slice} {x : Bytes} {n : Nat} :
    MSim A H (fun m => At A b x m ∧ P m) (Crd.lift (Verif.sliceFrom x n)) (Mrd.lift (sliceFrom b n))
      (fun a s m => At A s a m ∧ P m) :=
  msim_lift fun m hp => (at_sliceFrom hp.1 n).mono fun a s h => ⟨h, hp.2⟩

theorem sim_metaParse (N : Nat) :
    MSim A H (fun m => N ≤ m.length) Seg.Meta.parseGetResponse Meta.parseGetResponse (Gives A H N Spec.OwnArrays) := by
  unfold Seg.Meta.parseGetResponse Meta.parseGetResponse
  refine msim_line (keep_le N) fun x b => ?_
  refine msim_view at_bytes ?_
  refine msim_ite msim_fail ?_
  refine msim_ite msim_fail ?_
  refine msim_ite msim_fail ?_
  refine msim_sliceFrom.bind fun y s => ?_
  refine msim_view at_bytes ?_
  refine MSim.bind (R := fun a c m => (a = c ∧ Verif.Meta.hdrScan {} y = .ok a) ∧ N ≤ m.length) ?_ fun st st' => ?_
  · refine msim_lift fun m hp => ?_
    cases Verif.Meta.hdrScan {} y with
    | ok k => exact ⟨⟨rfl, rfl⟩, hp.2⟩
    | err e => rfl
    | panic => trivial
  refine msim_pull fun e => ?_
  obtain ⟨rfl, he⟩ := e
  have h4 := scan_flags y he (fun f e => by cases e)
  cases hf : st.item.flags with
  | none =>
    refine MSim.pre (P := fun m => N ≤ m.length) ?_ fun m hp => hp
    have key := msim_value_none (A := A) (H := H) (N := N) (size := st.size)
      (g := fun v => (pure { st.item with value := v } : Crd Item))
      (g' := fun v => (pure
        { key := st.item.key, value := v, flags := none, expiration := st.item.expiration, cas := st.item.cas,
          server := st.item.server } : Mrd MItem)) (S := Gives A H N Spec.OwnArrays)
      fun a buf ha hs => msim_pure fun m hp => by
        have := gives_own_none (key := st.item.key) (server := st.item.server) (exp := st.item.expiration)
          (cas := st.item.cas) hp ha hs
        dsimp only
        rw [hf]
        exact this
    exact key
  | some f =>
    refine msim_alloc (K := N) (Q := fun _ => True) (fun m hp => hp) (fun _ _ => trivial) fun fs => ?_
    refine MSim.pre (P := New A H N fs f) ?_ fun m hp => hp.1
    have key := msim_value (A := A) (H := H) (N := N) (f := fs) (fl := f) (size := st.size)
      (g := fun v => (pure { st.item with value := v } : Crd Item))
      (g' := fun v => (pure
        { key := st.item.key, value := v, flags := some fs, expiration := st.item.expiration, cas := st.item.cas,
          server := st.item.server } : Mrd MItem)) (S := Gives A H N Spec.OwnArrays)
      fun a buf ha hs => msim_pure fun m hp => by
        have := gives_own (key := st.item.key) (server := st.item.server) (exp := st.item.expiration)
          (cas := st.item.cas) hp.2 (h4 f hf) hp.1 (Nat.lt_succ_self _) ha hs
        dsimp only
        rw [hf]
        exact this
    exact key

theorem sim_metaGet (N : Nat) (k : Bytes) :
    MSim A H (fun m => N ≤ m.length) (Seg.Meta.get k) (Meta.get k) (Gives A H N Spec.OwnArrays) := by
  unfold Seg.Meta.get Meta.get
  refine (sim_metaParse N).bind fun a b => ?_
  refine msim_pure fun m hp => ⟨?_, ⟨hp.valid.value, hp.valid.flags⟩, hp.arrs, ⟨hp.shape.value, hp.shape.flags⟩⟩
  rw [← hp.flat]; rfl

theorem sim_metaLoop (N n : Nat) (as : List Item) (bs : List MItem) :
    MSim A H (fun m => N ≤ m.length ∧ GivesAll A H N Spec.OwnArrays as bs m) (Seg.Meta.multiLoop n as) (Meta.multiLoop n bs)
      (GivesAll A H N Spec.OwnArrays) := by
  induction n generalizing as bs with
  | zero => exact msim_lift fun _ _ => trivial
  | succ n ih =>
    intro c hc hp
    have hk : Keep A H (fun m => N ≤ m.length ∧ GivesAll A H N Spec.OwnArrays as bs m) :=
      keep_and (keep_le N) (keep_all own_shapely as bs)
    have h := msim_push (P := fun _ => True) (N := N) own_shapely (as := as) (bs := bs)
      (fun K => (sim_metaParse (A := A) (H := H) K).pre fun m hp => hp.2) c hc ⟨trivial, hp⟩
    obtain ⟨h1, h2, h3, h4⟩ := h
    unfold Seg.Meta.multiLoop Meta.multiLoop
    cases hx : Seg.Meta.parseGetResponse c.sock with
    | mk r s =>
      cases hy : Meta.parseGetResponse c with
      | mk q c' =>
        rw [hx, hy] at h4; rw [hx, hy] at h1; rw [hy] at h2 h3
        have h1' : c'.sock = s := h1
        cases r with
        | ok a =>
          cases q with
          | ok b =>
            obtain ⟨i1, i2, i3, i4⟩ := ih _ _ c' h2 h4
            rw [h1'] at i1 i4
            exact ⟨i1, i2, h3.trans i3, i4⟩
          | err e => exact h4.elim
          | panic => exact h4.elim
        | err e =>
          cases q with
          | ok b => exact h4.elim
          | err e' =>
            have : e = e' := h4
            subst this
            cases e <;> first | exact ⟨h1, h2, h3, rfl⟩ | exact ⟨h1, h2, h3, (hk _ _ h3 hp).2⟩
          | panic => exact h4.elim
        | panic =>
          cases q with
          | ok b => exact h4.elim
          | err e => exact h4.elim
          | panic => exact ⟨h1, h2, h3, trivial⟩

theorem sim_metaMulti (N : Nat) (ks : List Bytes) :
    MSim A H (fun m => N ≤ m.length) (Seg.Meta.getMulti ks) (Meta.getMulti ks) (GivesAll A H N Spec.OwnArrays) := by
  intro c hc hp
  exact sim_metaLoop N (c.left + 1) [] [] c hc ⟨hp, gives_nil _⟩

/-! ### binary -/

theorem gives_one {N : Nat} {buf : Slice} {a : Bytes} {vs ext : Nat} {m : Memory} {key : Bytes} {cas : Nat}
    (hb : New A H N buf a m) (hv : vs ≤ a.length) (he : ext ≤ a.length) :
    Gives A H N Spec.OneArray { key := key, value := a.drop vs, flags := some (a.take ext), cas := cas }
      { key := key, value := { buf with off := buf.off + vs, len := buf.len - vs, cap := buf.cap - vs },
        flags := some { buf with len := ext }, cas := cas } m := by
  have ho := hb.off
  have hl := hb.len
  have hcap := hb.cap
  refine ⟨?_, ⟨⟨?_, ?_⟩, ?_⟩, ?_, ⟨⟨_, rfl, rfl, ho, ?_⟩, ?_, ?_⟩⟩
  · unfold MItem.flat Slice.bytes
    dsimp only
    rw [Option.map_some, hb.all, ho, hl, Nat.zero_add, List.drop_zero]
    rw [List.take_of_length_le (l := a.drop vs) (by simp)]
  · show buf.len - vs ≤ buf.cap - vs
    omega
  · show buf.off + vs + (buf.cap - vs) ≤ (array m buf.arr).length
    rw [hb.all]; omega
  · intro f e
    cases e
    refine ⟨?_, ?_⟩
    · show ext ≤ buf.cap
      omega
    · show buf.off + buf.cap ≤ (array m buf.arr).length
      rw [hb.all]; omega
  · intro x hx
    simp only [Spec.arrays, Option.toList_some, List.map_cons, List.map_nil, List.mem_cons, List.not_mem_nil, or_false] at hx
    have : x = buf.arr := by rcases hx with h | h <;> exact h
    subst this
    exact ⟨hb.ge, hb.lt, hb.nA, hb.nH⟩
  · show buf.cap = (array m buf.arr).length
    rw [hb.all]; exact hcap
  · show buf.off + vs + (buf.len - vs) = (array m buf.arr).length
    rw [hb.all]; omega
  · show buf.cap - vs = buf.len - vs
    omega

theorem new_sliceFrom {N : Nat} {buf : Slice} {a : Bytes} {n : Nat} :
    MSim A H (fun m => New A H N buf a m ∧ P m) (Crd.lift (Verif.sliceFrom a n)) (Mrd.lift (sliceFrom buf n))
      (fun v s m => (v = a.drop n ∧ s = { buf with off := buf.off + n, len := buf.len - n, cap := buf.cap - n }
        ∧ n ≤ a.length) ∧ New A H N buf a m ∧ P m) :=
  msim_lift fun m hp => by
    unfold Verif.sliceFrom sliceFrom
    rw [hp.1.len]
    by_cases hn : n ≤ a.length
    · rw [if_pos hn, if_pos hn]; exact ⟨⟨rfl, rfl, hn⟩, hp⟩
    · rw [if_neg hn, if_neg hn]; trivial

theorem new_sliceTo' {N : Nat} {buf : Slice} {a : Bytes} {n : Nat} :
    MSim A H (fun m => New A H N buf a m ∧ P m) (Crd.lift (Verif.sliceTo a n)) (Mrd.lift (sliceTo buf n))
      (fun v s m => (v = a.take n ∧ s = { buf with len := n } ∧ n ≤ a.length) ∧ New A H N buf a m ∧ P m) :=
  msim_lift fun m hp => by
    unfold Verif.sliceTo sliceTo
    rw [hp.1.len]
    by_cases hn : 0 ≤ (n : Int) ∧ (n : Int) ≤ (a.length : Int)
    · rw [if_pos hn, if_pos hn]; exact ⟨⟨by rw [Int.toNat_natCast], by rw [Int.toNat_natCast], by omega⟩, hp⟩
    · rw [if_neg hn, if_neg hn]; trivial

theorem msim_hdr {f : Verif.Bin.ResHdr → Crd γ} {g : Verif.Bin.ResHdr → Mrd δ} {S : γ → δ → Memory → Prop}
    (hk : Keep A H P) (h : ∀ r, MSim A H P (f r) (g r) S) :
    MSim A H P (Seg.Bin.readHdr >>= f) (Bin.readHdr >>= g) S :=
  (msim_readHdr hk).bind fun a b => msim_pull fun e => by subst e; exact h a

theorem sim_binGet (N : Nat) (k : Bytes) :
    MSim A H (fun m => N ≤ m.length) (Seg.Bin.getReply k) (Bin.getReply k) (Gives A H N Spec.OneArray) := by
  unfold Seg.Bin.getReply Bin.getReply
  refine msim_hdr (keep_le N) fun r => ?_
  refine (msim_readNew (K := N) (keep_le N) fun m hp => hp).bind fun a buf => ?_
  refine msim_ite (msim_ite msim_fail msim_fail) ?_
  refine new_sliceFrom.bind fun v s => ?_
  refine msim_pull fun e => ?_
  obtain ⟨rfl, rfl, hv⟩ := e
  refine new_sliceTo'.bind fun f fs => ?_
  refine msim_pull fun e => ?_
  obtain ⟨rfl, rfl, hf⟩ := e
  exact msim_pure fun m hp => gives_one hp.1 hv hf

theorem sim_binLoop (N n : Nat) (as : List Item) (bs : List MItem) :
    MSim A H (fun m => N ≤ m.length ∧ GivesAll A H N Spec.OneArray as bs m) (Seg.Bin.multiLoop n as) (Bin.multiLoop n bs)
      (GivesAll A H N Spec.OneArray) := by
  induction n generalizing as bs with
  | zero => exact msim_lift fun _ _ => trivial
  | succ n ih =>
    unfold Seg.Bin.multiLoop Bin.multiLoop
    refine msim_hdr (keep_and (keep_le N) (keep_all one_shapely as bs)) fun r => ?_
    refine msim_ite (msim_pure fun m hp => hp.2) ?_
    refine msim_ite msim_fail ?_
    refine msim_fix fun K => ?_
    refine MSim.pre (P := fun m => K ≤ m.length ∧ N ≤ m.length ∧ GivesAll A H N Spec.OneArray as bs m
      ∧ (N ≤ K ∧ ∀ c ∈ bs, ∀ x ∈ Spec.arrays c, x < K)) ?_ ?_
    · refine (msim_readNew (K := K) (keep_and (keep_le K) (keep_and (keep_le N)
        (keep_and (keep_all one_shapely as bs) fun m m' _ h => h))) fun m hp => hp.1).bind fun a buf => ?_
      refine msim_view (fun m hp => hp.1.bytes) ?_
      refine MSim.bind (R := fun p q m => p = q ∧ New A H K buf a m ∧ a.length = r.totalBodyLength ∧ K ≤ m.length
        ∧ N ≤ m.length ∧ GivesAll A H N Spec.OneArray as bs m ∧ (N ≤ K ∧ ∀ c ∈ bs, ∀ x ∈ Spec.arrays c, x < K))
        (msim_eq fun m hp a => ⟨rfl, hp⟩) fun key key' => ?_
      refine msim_pull fun e => ?_
      subst e
      refine new_sliceFrom.bind fun v s => ?_
      refine msim_pull fun e => ?_
      obtain ⟨rfl, rfl, hv⟩ := e
      refine new_sliceTo'.bind fun f fs => ?_
      refine msim_pull fun e => ?_
      obtain ⟨rfl, rfl, hf⟩ := e
      exact (ih _ _).pre fun m hp => ⟨hp.2.2.2.1, gives_snoc hp.2.2.2.2.1 hp.2.2.2.2.2.2 hp.2.2.2.2.2.1 (gives_one hp.1 hv hf)⟩
    · intro m hp
      obtain ⟨⟨h2, h3⟩, rfl⟩ := hp
      exact ⟨Nat.le_refl _, h2, h3, h2, fun c hc x hx => ((h3.each c hc).2.1 x hx).2.1⟩

theorem sim_binMulti (N : Nat) (h1 h2 : Verif.Bin.ReqHdr) (ks : List Bytes) :
    MSim A H (fun m => N ≤ m.length) (Seg.Bin.getMulti h1 h2 ks) (Bin.getMulti ks) (GivesAll A H N Spec.OneArray) := by
  intro c hc hp
  exact sim_binLoop N (c.left + 1) [] [] c hc ⟨hp, gives_nil _⟩

/-- Prove the simulation of a binary reader without items. -/
macro "onehdr" : tactic => `(tactic| (
  refine msim_hdr keep_true fun r => ?_
  repeat' (first | with_reducible exact msim_pure fun _ _ => rfl | with_reducible exact msim_fail
                 | with_reducible apply msim_ite
                 | refine (msim_readNew (K := 0) keep_true fun m _ => Nat.zero_le _).bind fun a buf => ?_)))

theorem sim_bset (h : Verif.Bin.ReqHdr) (i : Item) :
    MSim A H (fun _ => True) (Seg.Bin.set h i) (Bin.stored Verif.Bin.opSet) Same := by
  unfold Seg.Bin.set Bin.stored; onehdr
theorem sim_badd (h : Verif.Bin.ReqHdr) (i : Item) :
    MSim A H (fun _ => True) (Seg.Bin.add h i) (Bin.stored Verif.Bin.opAdd) Same := by
  unfold Seg.Bin.add Bin.stored; onehdr
theorem sim_breplace (h : Verif.Bin.ReqHdr) (i : Item) :
    MSim A H (fun _ => True) (Seg.Bin.replace h i) (Bin.found Verif.Bin.opReplace) Same := by
  unfold Seg.Bin.replace Bin.found; onehdr
theorem sim_bdelete (h : Verif.Bin.ReqHdr) (k : Bytes) :
    MSim A H (fun _ => True) (Seg.Bin.delete h k) (Bin.found Verif.Bin.opDelete) Same := by
  unfold Seg.Bin.delete Bin.found; onehdr
theorem sim_btouch (h : Verif.Bin.ReqHdr) (k : Bytes) (e : Int) :
    MSim A H (fun _ => True) (Seg.Bin.touch h k e) Bin.touch Same := by
  unfold Seg.Bin.touch Bin.touch; onehdr
theorem sim_bflush (h : Verif.Bin.ReqHdr) : MSim A H (fun _ => True) (Seg.Bin.flush h) Bin.flush Same := by
  unfold Seg.Bin.flush Bin.flush; onehdr

theorem sim_bversion (h : Verif.Bin.ReqHdr) : MSim A H (fun _ => True) (Seg.Bin.version h) Bin.version Same := by
  unfold Seg.Bin.version Bin.version
  refine msim_hdr keep_true fun r => ?_
  refine msim_ite msim_fail ?_
  intro c hc hp
  have h := msim_readNew (K := 0) (n := r.totalBodyLength) (keep_true (A := A) (H := H)) (fun m _ => Nat.zero_le _) c hc hp
  obtain ⟨h1, h2, h3, h4⟩ := h
  rw [Mrd.bind_apply]
  cases hx : Bufio.readFull r.totalBodyLength c.sock with
  | mk q s =>
    cases hy : readNew r.totalBodyLength c with
    | mk q' c' =>
      rw [hx, hy] at h4; rw [hx, hy] at h1; rw [hy] at h2 h3
      cases q <;> cases q' <;> first | exact h4.elim | skip
      · exact ⟨h1, h2, h3, h4.1.bytes.symm⟩
      · exact ⟨h1, h2, h3, h4⟩
      · exact ⟨h1, h2, h3, trivial⟩

theorem sim_bincr (h : Verif.Bin.ReqHdr) (o : UInt8) (k : Bytes) (d e : Int) :
    MSim A H (fun _ => True) (Seg.Bin.incrOrDecr h o k d e) (Bin.incrOrDecr o) Same := by
  unfold Seg.Bin.incrOrDecr Bin.incrOrDecr
  refine msim_hdr keep_true fun r => ?_
  refine msim_ite msim_fail ?_
  refine (msim_readNew (K := 0) keep_true fun m _ => Nat.zero_le _).bind fun a buf => ?_
  refine msim_view (fun m hp => hp.1.bytes) ?_
  refine msim_ite ?_ ?_
  · cases Verif.Bin.binaryStatus.lookup r.status with
    | none => exact msim_fail
    | some v => exact msim_fail
  · refine MSim.bind (R := Same) (msim_eq fun _ _ _ => rfl) fun p q => ?_
    intro c hc hp
    have e : p = q := hp
    subst e
    exact ⟨rfl, hc, Frame.refl _ _ _, rfl⟩

end Mem
end Verif
