import Verif.Props.WiredBreak
import Verif.Props.WiredPool
import Verif.Props.ProgressUse
/-!
C85 for the methods of `SinglePool` on one key.
-/

namespace Verif
namespace Wired
open Kv Spec Mc Pool Cluster Props

variable {S : Type} [DecidableEq S] {H : Hashes} {name : S → Bytes} {r : Ring S} {p : Bytes → S} {proc : Nat → Nat}
  {order : List (Bytes × List Bytes) → List (Bytes × List Bytes)} {orderS : List S → List S}

/-- How far a method is, in both systems. -/
inductive Stage2 (p : Bytes → S) : Option (Prog S) → Option (Res Out) → Option (Op × Option (Res Out)) → Prop where
  | none : Stage2 p none none none
  | waits (o : Op) (k : Bytes) (fin : Res Out → Prog S) : o.key? = some k → GoodOp o → (∀ x, KindOf o x → fin (.ok x) = .ret (.ok x)) →
      (∀ e, fin (.err e) = .ret (.err e)) → fin .panic = .ret .panic → Stage2 p (some (.call (p k) o fin)) none (some (o, none))
  | has (o : Op) (k : Bytes) (fin : Res Out → Prog S) (x : Res Out) : o.key? = some k → GoodOp o → fin x = .ret x →
      (∀ e, fin (.err e) = .ret (.err e)) → Stage2 p (some (.call (p k) o fin)) (some x) (some (o, some x))
  | over (o : Op) (x : Res Out) : Stage2 p (some (.ret x)) none (some (o, some x))

theorem Stage2.none_iff {a : Option (Prog S)} {v : Option (Res Out)} {c : Option (Op × Option (Res Out))} (h : Stage2 p a v c) : c = Option.none ↔ a = Option.none := by
  cases h <;> simp

/-- The two systems. -/
structure FrailRel (p : Bytes → S) (a : Shaky S) (z : Frail S) : Prop where
  world : z.world = a.world
  broken : z.broken = a.down
  each : ∀ i, Stage2 p (a.prog i) (a.result i) (z.calls i)
  adrift : ∀ q s, a.pending q s = (z.adrift.filter fun x => decide (x.1 = q ∧ x.2.1 = s)).map fun x => x.2.2
  good : ∀ x ∈ z.adrift, GoodOp x.2.2 ∧ ∃ k, x.2.2.key? = some k ∧ x.2.1 = p k

theorem serverDoes_eq {k : Bytes} {o : Op} (h : o.key? = some k) (w : World S) :
    serverDoes name p w o = ((textApi (name (p k)) (w (p k)) o).1, World.update w (p k) (textApi (name (p k)) (w (p k)) o).2) := by
  unfold serverDoes; rw [h]

theorem first_of_filter {α : Type} {P : α → Bool} : ∀ {l : List α} {x : α} {m : List α}, l.filter P = x :: m →
    ∃ l1 l2, l = l1 ++ x :: l2 ∧ (∀ y ∈ l1, P y = false) ∧ m = l2.filter P ∧ P x = true
  | [], _, _, h => by cases h
  | y :: l, x, m, h => by
    cases hy : P y with
    | true =>
      rw [List.filter_cons_of_pos hy] at h
      injection h with h1 h2
      subst h1
      exact ⟨[], l, rfl, fun _ h => (by cases h), h2.symm, hy⟩
    | false =>
      rw [List.filter_cons_of_neg (by rw [hy]; simp)] at h
      obtain ⟨l1, l2, h1, h2, h3, h4⟩ := first_of_filter h
      refine ⟨y :: l1, l2, by rw [h1]; rfl, fun u hu => ?_, h3, h4⟩
      cases hu with
      | head => exact hy
      | tail _ hu => exact h2 u hu

theorem frail_step (hpick : ∀ k, r.pick H k = .ok (p k)) {a a' : Shaky S} {z : Frail S} {d : Deed S Op} (h : FrailRel p a z)
    (hs : ShakyStep (fun s => textCall (name s)) (poolProg H name r order orderS) proc a d a')
    (hd : ∀ i o, d = .ev (.start i o) → GoodOp o ∧ o.key? ≠ none) (hw : ∀ s, GoodStore (a.world s)) :
    (∃ z', FrailStep name p proc z d z' ∧ FrailRel p a' z') ∨ (∃ i, d = .learn i) ∧ FrailRel p a' z := by
  have move : ∀ {i : Nat} {u : Option (Prog S)} {v : Option (Res Out)} {x : Option (Op × Option (Res Out))}, Stage2 p u v x →
      ∀ j, Stage2 p (if j = i then u else a.prog j) (if j = i then v else a.result j) (if j = i then x else z.calls j) := by
    intro i u v x hx j
    by_cases hj : j = i
    · rw [if_pos hj, if_pos hj, if_pos hj]; exact hx
    · rw [if_neg hj, if_neg hj, if_neg hj]; exact h.each j
  have same : ∀ {α : Type} {f : Nat → α} {i : Nat} {v : α}, f i = v → (fun j => if j = i then v else f j) = f := by
    intro α f i v hv
    funext j
    by_cases hj : j = i
    · rw [if_pos hj, hj, hv]
    · rw [if_neg hj]
  cases hs with
  | tick d =>
    refine .inl ⟨_, .tick z d, ?_⟩
    exact ⟨by show World.tick z.world d = World.tick a.world d; rw [h.world], h.broken, h.each, h.adrift, h.good⟩
  | start i m h1 =>
    obtain ⟨g1, g2⟩ := hd i m rfl
    have hi := h.each i
    rw [h1] at hi
    obtain ⟨k, hk⟩ := Option.ne_none_iff_exists'.1 g2
    obtain ⟨fin, e1, e2, e3, e4⟩ := poolProg_one H name r order orderS m k (p k) hk (hpick k)
    have hnone : a.result i = none ∧ z.calls i = none := by
      generalize a.result i = u at hi
      generalize z.calls i = v at hi
      cases hi
      exact ⟨rfl, rfl⟩
    refine .inl ⟨_, .start z i m hnone.2, h.world, h.broken, fun j => ?_, h.adrift, h.good⟩
    have := move (i := i) (.waits m k fin hk g1 e2 e3 e4) j
    rw [congrFun (same hnone.1) j] at this
    show Stage2 p (if j = i then some (poolProg H name r order orderS m) else a.prog j) (a.result j) _
    rw [e1]
    exact this
  | finish i x h1 =>
    have hi := h.each i
    rw [h1] at hi
    have : a.result i = none ∧ ∃ o, z.calls i = some (o, some x) := by
      generalize a.result i = u at hi
      generalize z.calls i = v at hi
      cases hi with
      | over o => exact ⟨rfl, o, rfl⟩
    obtain ⟨e1, o, e2⟩ := this
    refine .inl ⟨_, .finish z i o x e2, h.world, h.broken, fun j => ?_, h.adrift, h.good⟩
    have := move (i := i) (.none) j
    rw [congrFun (same e1) j] at this
    exact this
  | breaks q s =>
    refine .inl ⟨_, .breaks z q s, h.world, ?_, h.each, h.adrift, h.good⟩
    show (fun q' s' => z.broken q' s' ∨ _) = _
    rw [h.broken]
  | run i s op k h1 h2 =>
    have hi := h.each i
    rw [h1, h2] at hi
    obtain ⟨key, e1, rfl, e2, e3, e4, e5, e6⟩ : ∃ key, z.calls i = some (op, none) ∧ s = p key ∧ op.key? = some key ∧ GoodOp op
        ∧ (∀ x, KindOf op x → k (.ok x) = .ret (.ok x)) ∧ (∀ e, k (.err e) = .ret (.err e)) ∧ k .panic = .ret .panic := by
      generalize z.calls i = v at hi
      cases hi with
      | waits _ key _ g1 g2 g3 g4 g5 => exact ⟨key, rfl, rfl, g1, g2, g3, g4, g5⟩
    have hx := C52_text_call (name (p key)) op e3 (a.world (p key)) (hw (p key))
    have hc : callOn (fun s => textCall (name s)) (p key) op some a.world
        = ((textApi (name (p key)) (a.world (p key)) op).1, World.update a.world (p key) (textApi (name (p key)) (a.world (p key)) op).2) :=
      callOn_exchange (call := fun s => textCall (name s)) hx
    have hd := serverDoes_eq (name := name) (p := p) e2 z.world
    rw [h.world] at hd
    refine .inl ⟨_, .run z i op e1, ?_, h.broken, fun j => ?_, h.adrift, h.good⟩
    · show (serverDoes name p z.world op).2 = (callOn _ (p key) op some a.world).2
      rw [hc, h.world, hd]
    · have := move (i := i) (.has op key k (textApi (name (p key)) (a.world (p key)) op).1 e2 e3 (by
        cases hr : (textApi (name (p key)) (a.world (p key)) op).1 with
        | ok x => exact e4 x (textApi_kind _ _ _ _ hr)
        | err e => exact e5 e
        | panic => exact e6) e5) j
      show Stage2 p (a.prog j) (if j = i then some (callOn _ (p key) op some a.world).1 else a.result j)
        (if j = i then some (op, some (serverDoes name p z.world op).1) else z.calls j)
      rw [hc, h.world, hd]
      rwa [congrFun (same h1) j] at this
  | learn i s op k x h1 h2 =>
    have hi := h.each i
    rw [h1, h2] at hi
    obtain ⟨e1, e2⟩ : z.calls i = some (op, some x) ∧ k x = .ret x := by
      generalize z.calls i = v at hi
      cases hi with
      | has _ key _ _ g1 g2 g3 g4 => exact ⟨rfl, g3⟩
    refine .inr ⟨⟨i, rfl⟩, h.world, h.broken, fun j => ?_, h.adrift, h.good⟩
    have := move (i := i) (.over op x) j
    rw [congrFun (same e1) j] at this
    show Stage2 p (if j = i then some (k x) else a.prog j) (if j = i then none else a.result j) _
    rw [e2]
    exact this
  | lose i s op k x h1 h2 h3 =>
    have hi := h.each i
    rw [h1, h2] at hi
    obtain ⟨key, e1, rfl, e2, e3⟩ : ∃ key, z.calls i = some (op, some x) ∧ s = p key ∧ op.key? = some key ∧ (∀ e, k (.err e) = .ret (.err e)) := by
      generalize z.calls i = v at hi
      cases hi with
      | has _ key _ _ g1 g2 g3 g4 => exact ⟨key, rfl, rfl, g1, g4⟩
    refine .inl ⟨_, .lose z i op key x e1 e2 (by rw [h.broken]; exact h3), h.world, h.broken, fun j => ?_, h.adrift, h.good⟩
    have := move (i := i) (.over op (.err .io)) j
    show Stage2 p (if j = i then some (k (.err .io)) else a.prog j) (if j = i then none else a.result j) _
    rw [e3]
    exact this
  | fail i s op k h1 h2 h3 =>
    have hi := h.each i
    rw [h1, h2] at hi
    obtain ⟨key, e1, rfl, e2, e3, e4⟩ : ∃ key, z.calls i = some (op, none) ∧ s = p key ∧ op.key? = some key ∧ (∀ e, k (.err e) = .ret (.err e)) ∧ GoodOp op := by
      generalize z.calls i = v at hi
      cases hi with
      | waits _ key _ g1 g2 g3 g4 g5 => exact ⟨key, rfl, rfl, g1, g4, g2⟩
    refine .inl ⟨_, .fail z i op key e1 e2 (by rw [h.broken]; exact h3), h.world, h.broken, fun j => ?_, fun q s => ?_, fun x hx => ?_⟩
    · have := move (i := i) (.over op (.err .io)) j
      rw [congrFun (same h2) j] at this
      show Stage2 p (if j = i then some (k (.err .io)) else a.prog j) (a.result j) _
      rw [e3]
      exact this
    · show (if q = proc i ∧ s = p key then a.pending q s ++ [op] else a.pending q s) = ((z.adrift ++ [(proc i, p key, op)]).filter _).map _
      rw [List.filter_append, List.map_append, ← h.adrift q s]
      by_cases hq : q = proc i ∧ s = p key
      · rw [if_pos hq, List.filter_cons_of_pos (by simp [hq.1, hq.2])]; rfl
      · rw [if_neg hq, List.filter_cons_of_neg (by
          simp only [decide_eq_true_eq]
          rintro ⟨e1, e2⟩; exact hq ⟨e1.symm, e2.symm⟩)]
        simp
    · rcases List.mem_append.1 hx with hx | hx
      · exact h.good x hx
      · rw [List.mem_singleton.1 hx]; exact ⟨e4, key, e2, rfl⟩
  | late q s op ops w h1 h2 =>
    obtain ⟨wire, reply, st, g1, g2, rfl⟩ := h2
    have hl := (h.adrift q s).symm.trans h1
    obtain ⟨x, m, e1, e2, e3⟩ : ∃ x m, (z.adrift.filter fun x => decide (x.1 = q ∧ x.2.1 = s)) = x :: m ∧ x.2.2 = op ∧ m.map (fun x => x.2.2) = ops := by
      cases hf : z.adrift.filter fun x => decide (x.1 = q ∧ x.2.1 = s) with
      | nil => rw [hf] at hl; cases hl
      | cons x m =>
        rw [hf] at hl
        injection hl with l1 l2
        exact ⟨x, m, rfl, l1, l2⟩
    obtain ⟨l1, l2, f1, f2, f3, f4⟩ := first_of_filter e1
    obtain ⟨xq, xs, xo⟩ := x
    simp only [decide_eq_true_eq] at f4
    obtain ⟨rfl, rfl⟩ := f4
    dsimp only at e2
    subst e2
    obtain ⟨k1, key, k2, k3⟩ := h.good (xq, xs, xo) (by rw [f1]; simp)
    dsimp only at k1 k2 k3
    subst k3
    have hx := C52_text_call (name (p key)) xo k1 (a.world (p key)) (hw (p key))
    have hst : (textApi (name (p key)) (a.world (p key)) xo).2 = st := by
      unfold exchange at hx
      dsimp only at g1
      rw [g1] at hx
      simp only [g2] at hx
      split at hx
      · split at hx
        · cases hx
        · injection hx with hx; rw [← hx]
      · cases hx
    have f2' : ∀ x ∈ l1, ¬ (x.1 = xq ∧ x.2.1 = p key) := fun x hx => by have := f2 x hx; simpa using this
    refine .inl ⟨_, .late z xq (p key) xo l1 l2 f1 f2', ?_, h.broken, h.each, fun q s => ?_, fun x hx => h.good x ?_⟩
    · show (serverDoes name p z.world xo).2 = World.update a.world (p key) st
      rw [serverDoes_eq k2, h.world, hst]
    · show (if q = xq ∧ s = p key then ops else a.pending q s) = ((l1 ++ l2).filter _).map _
      by_cases hq : q = xq ∧ s = p key
      · rw [if_pos hq, ← e3, f3, List.filter_append, hq.1, hq.2]
        have : l1.filter (fun x => decide (x.1 = xq ∧ x.2.1 = p key)) = [] := List.filter_eq_nil_iff.2 fun x hx => by rw [f2 x hx]; simp
        rw [this]; rfl
      · rw [if_neg hq, h.adrift q s, f1, List.filter_append, List.filter_append, List.filter_cons_of_neg]
        simp only [decide_eq_true_eq]
        rintro ⟨e1, e2⟩; exact hq ⟨e1.symm, e2.symm⟩
    · rw [f1]
      rcases List.mem_append.1 hx with hx | hx
      · exact List.mem_append_left _ hx
      · exact List.mem_append_right _ (.tail _ hx)

/-! ### Whole runs -/

/-- As `FrailStep`, in no order and whether or not connections are broken; `does` is how calls are carried out, `errs` the errors
that may be returned instead. -/
inductive LooseStep (does : World S → Op → Res Out × World S) (errs : Err → Prop) : Frail S → Deed S Op → Frail S → Prop where
  | tick (z : Frail S) (d : Nat) : LooseStep does errs z (.ev (.tick d)) { z with world := World.tick z.world d }
  | start (z : Frail S) (i : Nat) (o : Op) : z.calls i = none →
      LooseStep does errs z (.ev (.start i o)) { z with calls := fun j => if j = i then some (o, none) else z.calls j }
  | finish (z : Frail S) (i : Nat) (o : Op) (r : Res Out) : z.calls i = some (o, some r) →
      LooseStep does errs z (.ev (.finish i r)) { z with calls := fun j => if j = i then none else z.calls j }
  | breaks (z : Frail S) (d : Deed S Op) (br : Nat → S → Prop) : seenOf [d] = [] → carriedOut [d] = 0 → LooseStep does errs z d { z with broken := br }
  | run (z : Frail S) (i : Nat) (o : Op) : z.calls i = some (o, none) →
      LooseStep does errs z (.run i)
        { z with world := (does z.world o).2
                 calls := fun j => if j = i then some (o, some (does z.world o).1) else z.calls j }
  | lose (z : Frail S) (i : Nat) (o : Op) (r : Res Out) (e : Err) : z.calls i = some (o, some r) → errs e →
      LooseStep does errs z (.lose i) { z with calls := fun j => if j = i then some (o, some (.err e)) else z.calls j }
  | fail (z : Frail S) (i q : Nat) (s : S) (o : Op) (e : Err) : z.calls i = some (o, none) → errs e →
      LooseStep does errs z (.fail i)
        { z with calls := fun j => if j = i then some (o, some (.err e)) else z.calls j, adrift := z.adrift ++ [(q, s, o)] }
  | late (z : Frail S) (q : Nat) (s : S) (o : Op) (l1 l2 : List (Nat × S × Op)) : z.adrift = l1 ++ (q, s, o) :: l2 →
      LooseStep does errs z (.late q s) { z with world := (does z.world o).2, adrift := l1 ++ l2 }

inductive LooseRun (does : World S → Op → Res Out × World S) (errs : Err → Prop) (z0 : Frail S) : List (Deed S Op) → Frail S → Prop where
  | nil : LooseRun does errs z0 [] z0
  | snoc {l : List (Deed S Op)} {x : Deed S Op} {z z' : Frail S} : LooseRun does errs z0 l z → LooseStep does errs z x z' → LooseRun does errs z0 (l ++ [x]) z'

theorem loose_step {z z' : Frail S} {d : Deed S Op} (h : FrailStep name p proc z d z') : LooseStep (serverDoes name p) (· = .io) z d z' := by
  cases h with
  | tick d => exact .tick z d
  | start i o h1 => exact .start z i o h1
  | finish i o r h1 => exact .finish z i o r h1
  | breaks q s => exact .breaks z _ _ rfl rfl
  | run i o h1 => exact .run z i o h1
  | lose i o k r h1 => exact .lose z i o r _ h1 rfl
  | fail i o k h1 => exact .fail z i _ _ o _ h1 rfl
  | late q s o l1 l2 h1 => exact .late z q s o l1 l2 h1

theorem loose_run {z0 z : Frail S} {l : List (Deed S Op)} (h : FrailRun name p proc z0 l z) : LooseRun (serverDoes name p) (· = .io) z0 l z := by
  induction h with
  | nil => exact .nil
  | snoc _ hs ih => exact .snoc ih (loose_step hs)

variable {does : World S → Op → Res Out × World S} {errs : Err → Prop}

theorem loose_count {w : World S} {l : List (Deed S Op)} {z : Frail S} (h : LooseRun does errs (Frail.start w) l z) :
    ∃ ws : List Nat, (∀ i o, z.calls i = some (o, none) → i ∈ ws)
      ∧ carriedOut l + ws.length + z.adrift.length ≤ (Spec.Wired.starts (seenOf l)).length := by
  induction h with
  | nil => exact ⟨[], fun i o h => (by cases h), by simp [carriedOut, Frail.start, seenOf, Spec.Wired.starts]⟩
  | @snoc l d z z' _ hs ih =>
    obtain ⟨ws, h1, h2⟩ := ih
    rw [seenOf_append, starts_append, List.length_append, carriedOut_append]
    have done : ∀ {i : Nat} {o : Op} {x : Option (Op × Option (Res Out))}, z.calls i = some (o, none) → (∀ o', x ≠ some (o', none)) →
        (∀ j o, (if j = i then x else z.calls j) = some (o, none) → j ∈ ws.erase i) ∧ (ws.erase i).length + 1 = ws.length := by
      intro i o x hi hx
      have hm := h1 i o hi
      refine ⟨fun j o' hj => ?_, by rw [List.length_erase_of_mem hm]; have := List.length_pos_of_mem hm; omega⟩
      by_cases hji : j = i
      · rw [if_pos hji] at hj; exact absurd hj (hx o')
      · rw [if_neg hji] at hj; exact (List.mem_erase_of_ne hji).2 (h1 j o' hj)
    have keeps : ∀ {i : Nat} {x : Option (Op × Option (Res Out))}, (∀ o', x ≠ some (o', none)) →
        ∀ j o, (if j = i then x else z.calls j) = some (o, none) → j ∈ ws := by
      intro i x hx j o hj
      by_cases hji : j = i
      · rw [if_pos hji] at hj; exact absurd hj (hx o)
      · rw [if_neg hji] at hj; exact h1 j o hj
    cases hs with
    | tick d => exact ⟨ws, h1, h2⟩
    | start i o g1 =>
      refine ⟨i :: ws, fun j o' hj => ?_, by simp [carriedOut, seenOf, Spec.Wired.starts]; omega⟩
      by_cases hji : j = i
      · rw [hji]; exact .head _
      · exact .tail _ (h1 j o' (by have hj : (if j = i then some (o, none) else z.calls j) = _ := hj; rwa [if_neg hji] at hj))
    | finish i o r g1 => exact ⟨ws, keeps (by simp), h2⟩
    | breaks d br g1 g2 => exact ⟨ws, h1, by rw [g1, g2]; exact h2⟩
    | run i o g1 =>
      obtain ⟨k1, k2⟩ := done g1 (x := some (o, some (does z.world o).1)) (by simp)
      exact ⟨ws.erase i, k1, by simp only [carriedOut, seenOf, Spec.Wired.starts, List.length_nil]; omega⟩
    | lose i o r e g1 => exact ⟨ws, keeps (by simp), h2⟩
    | fail i q s o e g1 =>
      obtain ⟨k1, k2⟩ := done g1 (x := some (o, some (.err e))) (by simp)
      exact ⟨ws.erase i, k1, by simp only [carriedOut, seenOf, Spec.Wired.starts, List.length_nil, List.length_append, List.length_cons]; omega⟩
    | late q s o l1 l2 g1 =>
      refine ⟨ws, h1, ?_⟩
      rw [g1] at h2
      simp only [carriedOut, seenOf, Spec.Wired.starts, List.length_nil, List.length_append, List.length_cons] at h2 ⊢
      omega

theorem frail_count {w : World S} {l : List (Deed S Op)} {z : Frail S} (h : FrailRun name p proc (Frail.start w) l z) :
    ∃ ws : List Nat, (∀ i o, z.calls i = some (o, none) → i ∈ ws)
      ∧ carriedOut l + ws.length + z.adrift.length ≤ (Spec.Wired.starts (seenOf l)).length := loose_count (loose_run h)

/-- Every server within memcached's limits; `n` commands since `w`. -/
def Limits (w : World S) (n : Nat) (w' : World S) : Prop := ∀ s, GoodStore (w' s) ∧ (w' s).nextCas ≤ (w s).nextCas + n

theorem limits_does {w w' : World S} {n : Nat} (h : Limits w n w') {o : Op} (ho : GoodOp o) {k : Bytes} (hk : o.key? = some k)
    (hc : ∀ s, (w s).nextCas + n + 1 < 2 ^ 63) : Limits w (n + 1) (serverDoes name p w' o).2 := by
  rw [serverDoes_eq hk]
  intro s
  show GoodStore (if s = p k then _ else w' s) ∧ (if s = p k then _ else w' s).nextCas ≤ _
  by_cases hs : s = p k
  · rw [if_pos hs]
    obtain ⟨h1, h2⟩ := h (p k)
    have := hc (p k)
    obtain ⟨g1, g2⟩ := textApi_next (name (p k)) o (w' (p k)) ho h1 (by omega)
    exact ⟨g1, by rw [hs]; omega⟩
  · rw [if_neg hs]
    exact ⟨(h s).1, by have := (h s).2; omega⟩

theorem frail_limits {a : Shaky S} {z z' : Frail S} (h : FrailRel p a z) {d : Deed S Op} (hs : FrailStep name p proc z d z') {w : World S} {n : Nat}
    (hl : Limits w n z.world) (hc : ∀ s, (w s).nextCas + n + 1 < 2 ^ 63) : Limits w (n + carriedOut [d]) z'.world := by
  cases hs with
  | tick d => exact fun s => ⟨(hl s).1.tick d, (hl s).2⟩
  | start => exact hl
  | finish => exact hl
  | breaks => exact hl
  | lose => exact hl
  | fail => exact hl
  | run i o g1 =>
    have hi := h.each i
    rw [g1] at hi
    obtain ⟨k, k1, k2⟩ : ∃ k, o.key? = some k ∧ GoodOp o := by
      generalize a.prog i = u at hi
      generalize a.result i = v at hi
      cases hi with
      | waits _ k _ k1 k2 => exact ⟨k, k1, k2⟩
    exact limits_does hl k2 k1 hc
  | late q s o l1 l2 g1 =>
    obtain ⟨k1, k, k2, -⟩ := h.good (q, s, o) (by rw [g1]; simp)
    exact limits_does hl k1 k2 hc

theorem frail_run (hpick : ∀ k, r.pick H k = .ok (p k)) {w : World S} {l : List (Deed S Op)} {a : Shaky S}
    (hl : ShakyRun (fun s => textCall (name s)) (poolProg H name r order orderS) proc (Shaky.start w) l a)
    (hops : ∀ x ∈ Spec.Wired.starts (seenOf l), GoodOp x.2 ∧ x.2.key? ≠ none) (hw : ∀ s, GoodStore (w s))
    (hc : ∀ s, (w s).nextCas + (Spec.Wired.starts (seenOf l)).length + 1 < 2 ^ 63) :
    ∃ m z, FrailRun name p proc (Frail.start w) m z ∧ seenOf m = seenOf l ∧ carriedOut m = carriedOut l ∧ FrailRel p a z
      ∧ Limits w (carriedOut l) z.world := by
  induction hl with
  | nil =>
    exact ⟨[], Frail.start w, .nil, rfl, rfl, ⟨rfl, rfl, fun _ => .none, fun _ _ => rfl, fun _ h => by cases h⟩, fun s => ⟨hw s, Nat.le_refl _⟩⟩
  | @snoc l d a a' _ hs ih =>
    rw [seenOf_append, starts_append] at hops hc
    obtain ⟨m, z, g1, g2, g3, g4, g5⟩ := ih (fun x hx => hops x (List.mem_append_left _ hx)) fun s => by
      have := hc s; rw [List.length_append] at this; omega
    obtain ⟨ws, -, hcount⟩ := frail_count g1
    have hc' : ∀ s, (w s).nextCas + carriedOut l + 1 < 2 ^ 63 := fun s => by
      have := hc s
      rw [List.length_append] at this
      rw [g2, g3] at hcount
      omega
    rcases frail_step hpick g4 hs (fun i o e => hops (i, o) (by subst e; exact List.mem_append_right _ (.head _))) (fun s => by rw [← g4.world]; exact (g5 s).1) with
      ⟨z', k1, k2⟩ | ⟨⟨i, rfl⟩, k2⟩
    · exact ⟨m ++ [d], z', .snoc g1 k1, by rw [seenOf_append, seenOf_append, g2], by rw [carriedOut_append, carriedOut_append, g3], k2,
        by rw [carriedOut_append]; exact frail_limits g4 k1 g5 hc'⟩
    · exact ⟨m, z, g1, by rw [seenOf_append, g2]; simp [seenOf], by rw [carriedOut_append, g3]; rfl, k2, by rw [carriedOut_append]; exact g5⟩

theorem FrailRel.fine {a : Shaky S} {z : Frail S} (h : FrailRel p a z) (hw : ∀ s, GoodStore (z.world s)) : NextFine (fun s => textCall (name s)) a := by
  intro i s op k h1 h2
  have hi := h.each i
  rw [h1, h2] at hi
  have : GoodOp op := by
    generalize z.calls i = v at hi
    cases hi with
    | waits _ _ _ _ g => exact g
  exact text_proper _ this (by rw [← h.world]; exact hw s)

/-! ### The theorems -/

/-- The situation: goroutines of any number of processes call methods of `SinglePool` on one key each; connections may
break at any moment. -/
structure FrailUse (U : Setup S Op) (H : Hashes) (name : S → Bytes) (r : Ring S) (p : Bytes → S) (w : World S)
    (tr : List (Ev Op)) (x : State S) : Prop where
  conns : U.call = fun s => textCall (name s)
  methods : ∃ order orderS, U.method = poolProg H name r order orderS
  pick : ∀ k, r.pick H k = .ok (p k)
  run : Run U (State.init w) tr x
  ops : ∀ i o, (i, o) ∈ Spec.Wired.starts tr → GoodOp o ∧ o.key? ≠ none
  stores : ∀ s, GoodStore (w s)
  cas : ∀ s, (w s).nextCas + (Spec.Wired.starts tr).length + 1 < 2 ^ 63

section
variable {U : Setup S Op} {w : World S} {tr : List (Ev Op)} {x : State S}

theorem FrailUse.frail (c : FrailUse U H name r p w tr x) {l : List (Deed S Op)} {a : Shaky S}
    (hl : ShakyRun U.call U.method U.proc (Shaky.start w) l a) (hv : seenOf l <+: tr) :
    ∃ m z, FrailRun name p U.proc (Frail.start w) m z ∧ seenOf m = seenOf l ∧ carriedOut m = carriedOut l ∧ FrailRel p a z
      ∧ Limits w (carriedOut l) z.world := by
  obtain ⟨order, orderS, hm⟩ := c.methods
  rw [c.conns, hm] at hl
  have hst := starts_prefix hv
  exact frail_run c.pick hl (fun x hx => c.ops x.1 x.2 (hst.subset hx)) c.stores fun s => by
    have := c.cas s
    have := hst.length_le
    omega

/-- **C85**: what all processes see of their calls is what they could see if every method were carried out at one moment
between its call and its return by the server of its key, were it not that a method may return an error if the
connection of its process to that server is broken, and then it may have been carried out, or be carried out later, at
most once, or never. -/
theorem C85_pool (c : FrailUse U H name r p w tr x) :
    ∃ l z, FrailRun name p U.proc (Frail.start w) l z ∧ seenOf l = tr ∧ carriedOut l = x.calls ∧ z.world = x.world
      ∧ (∀ q s, z.broken q s ↔ (x.line q s).conn.ended = true) ∧ ∀ i, z.calls i = none ↔ x.prog i = none := by
  obtain ⟨l, a, h1, h2, h3, h4, h5, h6⟩ := C85_refines (.inl ⟨name, c.conns⟩) c.run fun l a hl hv _ => by
    obtain ⟨m, z, -, -, -, g, g'⟩ := c.frail hl hv
    rw [c.conns]
    exact g.fine fun s => (g' s).1
  obtain ⟨m, z, g1, g2, g3, g4, -⟩ := c.frail h1 (by rw [h2]; exact List.prefix_refl _)
  exact ⟨m, z, g1, g2.trans h2, g3.trans h3, g4.world.trans h4, fun q s => by rw [g4.broken]; exact h6 q s,
    fun i => by rw [← h5]; exact (g4.each i).none_iff⟩

/-- **C85**: no call is carried out twice: memcached has carried out no more commands than methods were called. -/
theorem C85_at_most_once (c : FrailUse U H name r p w tr x) : x.calls ≤ (Spec.Wired.starts tr).length := by
  obtain ⟨l, z, h1, h2, h3, -⟩ := C85_pool c
  obtain ⟨ws, -, h⟩ := frail_count h1
  rw [h2, h3] at h
  omega

theorem serverDoes_not_io (w : World S) (o : Op) : (serverDoes name p w o).1 ≠ .err .io := by
  unfold serverDoes
  split
  · exact Sched.textApi_not_io _ _ _
  · simp

theorem frail_errors {l : List (Deed S Op)} {z : Frail S} (h : FrailRun name p proc (Frail.start w) l z) :
    (∀ i o, z.calls i = some (o, some (.err .io)) → ∃ k, o.key? = some k ∧ z.broken (proc i) (p k))
      ∧ ∀ i, .finish i (.err .io) ∈ seenOf l → ∃ o k, (i, o) ∈ Spec.Wired.starts (seenOf l) ∧ o.key? = some k ∧ z.broken (proc i) (p k) := by
  suffices key : (∀ i o x, z.calls i = some (o, x) → (i, o) ∈ Spec.Wired.starts (seenOf l)) ∧ (∀ i o, z.calls i = some (o, some (.err .io)) → ∃ k, o.key? = some k ∧ z.broken (proc i) (p k))
      ∧ ∀ i, .finish i (.err .io) ∈ seenOf l → ∃ o k, (i, o) ∈ Spec.Wired.starts (seenOf l) ∧ o.key? = some k ∧ z.broken (proc i) (p k) from key.2
  induction h with
  | nil => exact ⟨fun _ _ _ h => (by cases h), fun _ _ h => (by cases h), fun _ h => (by cases h)⟩
  | @snoc l d z z' _ hs ih =>
    obtain ⟨h0, h1, h2⟩ := ih
    rw [seenOf_append, starts_append]
    have new : ∀ {i : Nat} {v : Option (Op × Option (Res Out))} {Q : Nat → Op → Option (Res Out) → Prop}, (∀ o x, v = some (o, x) → Q i o x) →
        (∀ j o x, z.calls j = some (o, x) → Q j o x) → ∀ j o x, (if j = i then v else z.calls j) = some (o, x) → Q j o x := by
      intro i v Q hv hz j o x hj
      by_cases hji : j = i
      · subst hji; rw [if_pos rfl] at hj; exact hv o x hj
      · rw [if_neg hji] at hj; exact hz j o x hj
    have new1 : ∀ {i : Nat} {v : Option (Op × Option (Res Out))}, (∀ o, v = some (o, some (.err .io)) → ∃ k, o.key? = some k ∧ z.broken (proc i) (p k)) →
        ∀ j o, (if j = i then v else z.calls j) = some (o, some (.err .io)) → ∃ k, o.key? = some k ∧ z.broken (proc j) (p k) := by
      intro i v hv j o hj
      exact new (Q := fun j o x => x = some (.err .io) → ∃ k, o.key? = some k ∧ z.broken (proc j) (p k))
        (fun o x e e' => hv o (by rw [e, e'])) (fun j o x hj e => h1 j o (by rw [hj, e])) j o _ hj rfl
    have up0 : ∀ {es : List (Nat × Op)} j o x, z.calls j = some (o, x) → (j, o) ∈ Spec.Wired.starts (seenOf l) ++ es :=
      fun j o x hj => List.mem_append_left _ (h0 j o x hj)
    have up2 : ∀ {es : List (Nat × Op)} i, .finish i (.err .io) ∈ seenOf l →
        ∃ o k, (i, o) ∈ Spec.Wired.starts (seenOf l) ++ es ∧ o.key? = some k ∧ z.broken (proc i) (p k) := fun i hi => by
      obtain ⟨o, k, g1, g2, g3⟩ := h2 i hi
      exact ⟨o, k, List.mem_append_left _ g1, g2, g3⟩
    have nof : ∀ {es : List (Ev Op)}, (∀ i, .finish i (.err .io) ∉ es) → ∀ i, .finish i (.err .io) ∈ seenOf l ++ es → .finish i (.err .io) ∈ seenOf l :=
      fun hes i hi => (List.mem_append.1 hi).resolve_right (hes i)
    cases hs with
    | tick d => exact ⟨up0, h1, fun i hi => up2 i (nof (by simp [seenOf]) i hi)⟩
    | start i o g1 =>
      refine ⟨new (Q := fun j o _ => (j, o) ∈ _) (fun o' x e => ?_) up0, fun j o' => ?_, fun i hi => up2 i (nof (by simp [seenOf]) i hi)⟩
      · cases e; exact List.mem_append_right _ (.head _)
      · exact new1 (fun o e => by cases e) j o'
    | finish i o y g1 =>
      refine ⟨new (Q := fun j o _ => (j, o) ∈ _) (fun o' x e => by cases e) up0, fun j o' => ?_, fun j hj => ?_⟩
      · exact new1 (fun o e => by cases e) j o'
      · rcases List.mem_append.1 hj with hj | hj
        · exact up2 j hj
        · have e := List.mem_singleton.1 hj
          injection e with e1 e2
          subst e1 e2
          obtain ⟨k, k1, k2⟩ := h1 j o g1
          exact ⟨o, k, up0 j o _ g1, k1, k2⟩
    | breaks q s =>
      refine ⟨up0, fun i o hi => ?_, fun i hi => ?_⟩
      · obtain ⟨k, k1, k2⟩ := h1 i o hi
        exact ⟨k, k1, .inl k2⟩
      · obtain ⟨o, k, k0, k1, k2⟩ := up2 i (nof (by simp [seenOf]) i hi)
        exact ⟨o, k, k0, k1, .inl k2⟩
    | run i o g1 =>
      refine ⟨new (Q := fun j o _ => (j, o) ∈ _) (fun o' x e => by cases e; exact up0 i o _ g1) up0, fun j o' => ?_, fun i hi => up2 i (nof (by simp [seenOf]) i hi)⟩
      exact new1 (fun o' e => by injection e with e; injection e with _ e; injection e with e; exact absurd e (serverDoes_not_io _ _)) j o'
    | lose i o k x g1 g2 g3 =>
      refine ⟨new (Q := fun j o _ => (j, o) ∈ _) (fun o' x e => by cases e; exact up0 i o _ g1) up0, fun j o' => ?_, fun i hi => up2 i (nof (by simp [seenOf]) i hi)⟩
      exact new1 (fun o e => by cases e; exact ⟨k, g2, g3⟩) j o'
    | fail i o k g1 g2 g3 =>
      refine ⟨new (Q := fun j o _ => (j, o) ∈ _) (fun o' x e => by cases e; exact up0 i o _ g1) up0, fun j o' => ?_, fun i hi => up2 i (nof (by simp [seenOf]) i hi)⟩
      exact new1 (fun o e => by cases e; exact ⟨k, g2, g3⟩) j o'
    | late q s o l1 l2 g1 => exact ⟨up0, h1, fun i hi => up2 i (nof (by simp [seenOf]) i hi)⟩

/-- **C85**: a method returns a connection error only if a connection of its own process is broken, namely the one to the
server of the key of one of the calls of that goroutine. -/
theorem C85_error_broken (c : FrailUse U H name r p w tr x) {i : Nat} (hi : .finish i (.err .io) ∈ tr) :
    ∃ o k, (i, o) ∈ Spec.Wired.starts tr ∧ o.key? = some k ∧ (x.line (U.proc i) (p k)).conn.ended = true := by
  obtain ⟨l, z, h1, h2, -, -, h5, -⟩ := C85_pool c
  obtain ⟨-, h⟩ := frail_errors h1
  rw [h2] at h
  obtain ⟨o, k, g1, g2, g3⟩ := h i hi
  exact ⟨o, k, g1, g2, (h5 _ _).1 g3⟩
end

end Wired
end Verif
