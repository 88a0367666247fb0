import Verif.Props.RewiredSim
import Verif.Props.WiredBreakUse
/-!
C86 for the methods of `SinglePool` on one key.
-/

namespace Verif
namespace Rewired
open Kv Spec Mc Pool Cluster Props
open Wired (Setup Ev FrailRel LooseStep LooseRun frail_step serverDoes_eq first_of_filter Limits limits_does Readers Clients)

variable {S : Type} [DecidableEq S] {H : Hashes} {name : S → Bytes} {r : Ring S} {p : Bytes → S} {proc : Nat → Nat}
  {order : List (Bytes × List Bytes) → List (Bytes × List Bytes)} {orderS : List S → List S}

/-- On the connection in use. -/
def recent (z : Patched S) (x : Nat × S × Nat × Op) : Bool := decide (x.2.2.1 = z.era x.1 x.2.1)

/-- Without the number of the connection. -/
def plain (x : Nat × S × Nat × Op) : Nat × S × Op := (x.1, x.2.1, x.2.2.2)

/-- On connection number `g` of process `q` to server `s`. -/
def onConn (q : Nat) (s : S) (g : Nat) (x : Nat × S × Nat × Op) : Bool := decide (x.1 = q ∧ x.2.1 = s ∧ x.2.2.1 = g)

/-- With the connections in use only. -/
def cur (z : Patched S) : Frail S := ⟨z.world, z.calls, z.broken, (z.adrift.filter (recent z)).map plain⟩

/-- The two specifications. -/
structure PatchRel (p : Bytes → S) (a : Mended S) (z : Patched S) : Prop where
  now : FrailRel p a.now (cur z)
  era : z.era = a.era
  past : ∀ q s g, g < z.era q s → a.past q s g = (z.adrift.filter (onConn q s g)).map fun x => x.2.2.2
  old : ∀ x ∈ z.adrift, x.2.2.1 ≤ z.era x.1 x.2.1
  good : ∀ x ∈ z.adrift, GoodOp x.2.2.2 ∧ ∃ k, x.2.2.2.key? = some k ∧ x.2.1 = p k

/-- An element of a part of a list. -/
theorem of_filter_map {α β : Type} {P : α → Bool} {f : α → β} {l1 l2 : List β} {x : β} : ∀ {l : List α}, (l.filter P).map f = l1 ++ x :: l2 →
    ∃ m1 y m2, l = m1 ++ y :: m2 ∧ P y = true ∧ f y = x ∧ (m1.filter P).map f = l1 ∧ (m2.filter P).map f = l2 := by
  intro l h
  obtain ⟨a1, a2, h1, h2, h3⟩ := List.map_eq_append_iff.1 h
  obtain ⟨y, a3, h4, h5, h6⟩ := List.map_eq_cons_iff.1 h3
  subst h4
  obtain ⟨m1, m2, h7, h8, h9⟩ := List.filter_eq_append_iff.1 h1
  obtain ⟨k1, k2, h10, h11, h12⟩ := List.filter_eq_cons_iff.1 h9
  refine ⟨m1 ++ k1, y, k2, by rw [h7, h10, List.append_assoc], h12.1, h5, ?_, by rw [h12.2, h6]⟩
  rw [List.filter_append, h8, List.filter_eq_nil_iff.2 h11, List.append_nil, h2]

/-- What happens with the connections in use. -/
theorem lift_step {z : Patched S} {d : Deed S Op} {y : Frail S} (hs : FrailStep name p proc (cur z) d y) (ho : ∀ x ∈ z.adrift, x.2.2.1 ≤ z.era x.1 x.2.1)
    (hg : ∀ x ∈ z.adrift, GoodOp x.2.2.2 ∧ ∃ k, x.2.2.2.key? = some k ∧ x.2.1 = p k)
    (hgood : ∀ i o, z.calls i = some (o, none) → GoodOp o) :
    ∃ z', PatchedStep name p proc z d z' ∧ cur z' = y ∧ z'.era = z.era
      ∧ (∀ q s g, g < z.era q s → z'.adrift.filter (onConn q s g) = z.adrift.filter (onConn q s g))
      ∧ (∀ x ∈ z'.adrift, x.2.2.1 ≤ z.era x.1 x.2.1) ∧ ∀ x ∈ z'.adrift, GoodOp x.2.2.2 ∧ ∃ k, x.2.2.2.key? = some k ∧ x.2.1 = p k := by
  cases hs with
  | tick d => exact ⟨_, .tick z d, rfl, rfl, fun _ _ _ _ => rfl, ho, hg⟩
  | start i o h1 => exact ⟨_, .start z i o h1, rfl, rfl, fun _ _ _ _ => rfl, ho, hg⟩
  | finish i o x h1 => exact ⟨_, .finish z i o x h1, rfl, rfl, fun _ _ _ _ => rfl, ho, hg⟩
  | breaks q s => exact ⟨_, .breaks z q s, rfl, rfl, fun _ _ _ _ => rfl, ho, hg⟩
  | run i o h1 => exact ⟨_, .run z i o h1, rfl, rfl, fun _ _ _ _ => rfl, ho, hg⟩
  | lose i o k x h1 h2 h3 => exact ⟨_, .lose z i o k x h1 h2 h3, rfl, rfl, fun _ _ _ _ => rfl, ho, hg⟩
  | fail i o k h1 h2 h3 =>
    refine ⟨_, .fail z i o k h1 h2 h3, ?_, rfl, fun q s g hgs => ?_, fun x hx => ?_, fun x hx => ?_⟩
    · show Frail.mk _ _ _ ((List.filter (recent z) (z.adrift ++ [(proc i, p k, z.era (proc i) (p k), o)])).map plain) = Frail.mk _ _ _ ((z.adrift.filter (recent z)).map plain ++ [(proc i, p k, o)])
      rw [List.filter_append, List.map_append, List.filter_cons_of_pos (by simp [recent])]
      rfl
    · show (z.adrift ++ [(proc i, p k, z.era (proc i) (p k), o)]).filter _ = _
      rw [List.filter_append, List.filter_cons_of_neg]
      · simp
      · simp only [onConn, decide_eq_true_eq]
        rintro ⟨rfl, rfl, rfl⟩
        exact Nat.lt_irrefl _ hgs
    · rcases List.mem_append.1 hx with hx | hx
      · exact ho x hx
      · rw [List.mem_singleton.1 hx]; exact Nat.le_refl _
    · rcases List.mem_append.1 hx with hx | hx
      · exact hg x hx
      · rw [List.mem_singleton.1 hx]; exact ⟨hgood i o h1, k, h2, rfl⟩
  | late q s o l1 l2 h1 h2 =>
    obtain ⟨m1, y, m2, e1, e2, e3, e4, e5⟩ := of_filter_map h1
    obtain ⟨yq, ys, yg, yo⟩ := y
    simp only [plain, Prod.mk.injEq] at e3
    obtain ⟨rfl, rfl, rfl⟩ := e3
    simp only [recent, decide_eq_true_eq] at e2
    refine ⟨_, .late z yq ys yg yo m1 m2 e1 fun x hx hx' => ?_, ?_, rfl, fun q s g hgs => ?_, fun x hx => ho x ?_, fun x hx => hg x ?_⟩
    · refine h2 (plain x) ?_ ⟨hx'.1, hx'.2.1⟩
      rw [← e4]
      refine List.mem_map_of_mem (List.mem_filter.2 ⟨hx, ?_⟩)
      simp only [recent, decide_eq_true_eq]
      rw [hx'.1, hx'.2.1, hx'.2.2]; exact e2
    · show Frail.mk _ _ _ (((m1 ++ m2).filter (recent z)).map plain) = Frail.mk _ _ _ _
      rw [List.filter_append, List.map_append, e4, e5]
      rfl
    · rw [e1]
      show (m1 ++ m2).filter _ = _
      rw [List.filter_append, List.filter_append, List.filter_cons_of_neg]
      simp only [onConn, decide_eq_true_eq]
      rintro ⟨rfl, rfl, rfl⟩
      rw [e2] at hgs
      exact Nat.lt_irrefl _ hgs
    · rw [e1]
      rcases List.mem_append.1 hx with hx | hx
      · exact List.mem_append_left _ hx
      · exact List.mem_append_right _ (.tail _ hx)
    · rw [e1]
      rcases List.mem_append.1 hx with hx | hx
      · exact List.mem_append_left _ hx
      · exact List.mem_append_right _ (.tail _ hx)

theorem good_of_calls {a : Shaky S} {z : Frail S} (h : FrailRel p a z) : ∀ i o, z.calls i = some (o, none) → GoodOp o := by
  intro i o hi
  have := h.each i
  rw [hi] at this
  generalize a.prog i = u at this
  generalize a.result i = v at this
  cases this with
  | waits _ k _ k1 k2 => exact k2

theorem patched_step (hpick : ∀ k, r.pick H k = .ok (p k)) {a a' : Mended S} {z : Patched S} {d : Deed S Op} (h : PatchRel p a z)
    (hs : MendedStep (fun s => textCall (name s)) (poolProg H name r order orderS) proc a d a')
    (hd : ∀ i o, d = .ev (.start i o) → GoodOp o ∧ o.key? ≠ none) (hw : ∀ s, GoodStore (a.now.world s)) :
    (∃ z', PatchedStep name p proc z d z' ∧ PatchRel p a' z') ∨ (∃ i, d = .learn i) ∧ PatchRel p a' z := by
  cases hs with
  | now _ b h1 =>
    rcases frail_step hpick h.now h1 hd hw with ⟨y, g1, g2⟩ | ⟨g1, g2⟩
    · obtain ⟨z', k1, rfl, k3, k4, k5, k6⟩ := lift_step g1 h.old h.good (good_of_calls h.now)
      refine .inl ⟨z', k1, g2, k3.trans h.era, fun q s g hg => ?_, fun x hx => by rw [k3]; exact k5 x hx, k6⟩
      rw [k3] at hg
      rw [k4 q s g hg]
      exact h.past q s g hg
    · exact .inr ⟨g1, g2, h.era, h.past, h.old, h.good⟩
  | mends q s h1 =>
    have hb : z.broken q s := by
      have := h.now.broken
      show (cur z).broken q s
      rw [this]; exact h1
    refine .inl ⟨_, .mends z q s hb, ⟨h.now.world, ?_, h.now.each, fun q' s' => ?_, fun x hx => ?_⟩, ?_, fun q' s' g hg => ?_, fun x hx => ?_, h.good⟩
    · show (fun q' s' => z.broken q' s' ∧ _) = _
      rw [show z.broken = a.now.down from h.now.broken]
    · show (if q' = q ∧ s' = s then [] else a.now.pending q' s') = (((z.adrift.filter _).map plain).filter _).map _
      rw [List.filter_map, List.map_map, List.filter_filter]
      by_cases e : q' = q ∧ s' = s
      · rw [if_pos e]
        obtain ⟨rfl, rfl⟩ := e
        symm
        rw [List.map_eq_nil_iff, List.filter_eq_nil_iff]
        intro x hx hx'
        have hx2 := h.old x hx
        obtain ⟨y1, y2⟩ := Bool.and_eq_true_iff.1 hx'
        have e12 : x.1 = q' ∧ x.2.1 = s' := of_decide_eq_true y1
        obtain ⟨e1, e2⟩ := e12
        have e3 : x.2.2.1 = (if x.1 = q' ∧ x.2.1 = s' then z.era q' s' + 1 else z.era x.1 x.2.1) := of_decide_eq_true y2
        rw [if_pos ⟨e1, e2⟩] at e3
        rw [e1, e2] at hx2
        omega
      · rw [if_neg e, h.now.adrift q' s']
        show (((z.adrift.filter (recent z)).map plain).filter _).map _ = _
        rw [List.filter_map, List.map_map, List.filter_filter]
        congr 1
        refine List.filter_congr fun x hx => ?_
        simp only [recent, plain, Function.comp]
        by_cases e1 : x.1 = q' ∧ x.2.1 = s'
        · have : ¬ (x.1 = q ∧ x.2.1 = s) := fun e2 => e ⟨e1.1.symm.trans e2.1, e1.2.symm.trans e2.2⟩
          simp [this]
        · simp [e1]
    · obtain ⟨y, hy, rfl⟩ := List.mem_map.1 hx
      exact h.good y (List.mem_filter.1 hy).1
    · show (fun q' s' => if q' = q ∧ s' = s then z.era q s + 1 else z.era q' s') = fun q' s' => if q' = q ∧ s' = s then a.era q s + 1 else a.era q' s'
      rw [h.era]
    · have hg : g < (if q' = q ∧ s' = s then z.era q s + 1 else z.era q' s') := hg
      show (if q' = q ∧ s' = s ∧ g = a.era q s then a.now.pending q s else a.past q' s' g) = _
      by_cases e : q' = q ∧ s' = s
      · obtain ⟨rfl, rfl⟩ := e
        rw [if_pos ⟨rfl, rfl⟩] at hg
        by_cases e : g = a.era q' s'
        · rw [if_pos ⟨rfl, rfl, e⟩, h.now.adrift q' s']
          show (((z.adrift.filter (recent z)).map plain).filter _).map _ = _
          rw [List.filter_map, List.map_map, List.filter_filter]
          have : z.adrift.filter (fun x => ((fun x : Nat × S × Op => decide (x.1 = q' ∧ x.2.1 = s')) ∘ plain) x && recent z x) = z.adrift.filter (onConn q' s' g) := by
            refine List.filter_congr fun x hx => ?_
            rw [Bool.eq_iff_iff, Bool.and_eq_true_iff]
            constructor
            · rintro ⟨y1, y2⟩
              have e12 : x.1 = q' ∧ x.2.1 = s' := of_decide_eq_true y1
              have e3 : x.2.2.1 = z.era x.1 x.2.1 := of_decide_eq_true y2
              exact decide_eq_true ⟨e12.1, e12.2, by rw [e3, e, h.era, e12.1, e12.2]⟩
            · intro y
              have e12 : x.1 = q' ∧ x.2.1 = s' ∧ x.2.2.1 = g := of_decide_eq_true y
              exact ⟨decide_eq_true ⟨e12.1, e12.2.1⟩, decide_eq_true (by rw [e12.2.2, e, h.era, e12.1, e12.2.1])⟩
          rw [this]
          rfl
        · rw [if_neg fun x => e x.2.2]
          refine h.past q' s' g ?_
          rw [h.era] at hg ⊢
          omega
      · rw [if_neg e] at hg
        rw [if_neg fun x => e ⟨x.1, x.2.1⟩]
        exact h.past q' s' g hg
    · have := h.old x hx
      show _ ≤ (if x.1 = q ∧ x.2.1 = s then z.era q s + 1 else z.era x.1 x.2.1)
      by_cases e : x.1 = q ∧ x.2.1 = s
      · rw [if_pos e]; rw [e.1, e.2] at this; omega
      · rw [if_neg e]; exact this
  | late q s g op ops w h0 h1 h2 =>
    obtain ⟨wire, reply, st, g1, g2, rfl⟩ := h2
    have h0 : g < z.era q s := by rw [h.era]; exact h0
    have hl := (h.past q s g h0).symm.trans h1
    obtain ⟨m1, y, m2, e1, e2, e3, e4, e5⟩ := of_filter_map (l1 := []) hl
    obtain ⟨yq, ys, yg, yo⟩ := y
    simp only [onConn, decide_eq_true_eq] at e2
    obtain ⟨rfl, rfl, rfl⟩ := e2
    dsimp only at e3
    subst e3
    obtain ⟨k1, key, k2, k3⟩ := h.good (yq, ys, yg, yo) (by rw [e1]; simp)
    dsimp only at k1 k2 k3
    subst k3
    have hx := C52_text_call (name (p key)) yo k1 (a.now.world (p key)) (hw (p key))
    have hst : (textApi (name (p key)) (a.now.world (p key)) yo).2 = st := by
      unfold exchange at hx
      dsimp only at g1
      rw [g1] at hx
      simp only [g2] at hx
      split at hx
      · split at hx
        · cases hx
        · injection hx with hx; rw [← hx]
      · cases hx
    have f1 : m1.filter (onConn yq (p key) yg) = [] := by simpa using e4
    have sub : ∀ x, x ∈ m1 ++ m2 → x ∈ z.adrift := fun x hx => by
      rw [e1]
      rcases List.mem_append.1 hx with hx | hx
      · exact List.mem_append_left _ hx
      · exact List.mem_append_right _ (.tail _ hx)
    have same : (m1 ++ m2).filter (recent z) = z.adrift.filter (recent z) := by
      rw [e1, List.filter_append, List.filter_append, List.filter_cons_of_neg]
      simp only [recent, decide_eq_true_eq]
      omega
    refine .inl ⟨_, .late z yq (p key) yg yo m1 m2 e1 fun x hx hx' => ?_, ⟨?_, h.now.broken, h.now.each, fun q' s' => ?_, fun x hx => h.now.good x ?_⟩, h.era, fun q' s' g' hg' => ?_, fun x hx => h.old x (sub x hx), fun x hx => h.good x (sub x hx)⟩
    · have := List.filter_eq_nil_iff.1 f1 x hx
      simp only [onConn, decide_eq_true_eq] at this
      exact this hx'
    · show (serverDoes name p z.world yo).2 = World.update a.now.world (p key) st
      rw [serverDoes_eq k2, show z.world = a.now.world from h.now.world, hst]
    · show _ = ((((m1 ++ m2).filter (recent z)).map plain).filter _).map _
      rw [same]
      exact h.now.adrift q' s'
    · have hx : x ∈ ((m1 ++ m2).filter (recent z)).map plain := hx
      rw [same] at hx
      exact hx
    · show (if q' = yq ∧ s' = p key ∧ g' = yg then ops else a.past q' s' g') = ((m1 ++ m2).filter _).map _
      by_cases e : q' = yq ∧ s' = p key ∧ g' = yg
      · rw [if_pos e]
        obtain ⟨rfl, rfl, rfl⟩ := e
        rw [List.filter_append, f1, List.nil_append, e5]
      · rw [if_neg e, h.past q' s' g' hg', e1, List.filter_append, List.filter_append, List.filter_cons_of_neg]
        simp only [onConn, decide_eq_true_eq]
        rintro ⟨e1, e2, e3⟩; exact e ⟨e1.symm, e2.symm, e3.symm⟩

/-! ### Whole runs -/

/-- Without the numbers of the connections. -/
def forget (z : Patched S) : Frail S := ⟨z.world, z.calls, z.broken, z.adrift.map plain⟩

theorem forget_step {z z' : Patched S} {d : Deed S Op} (h : PatchedStep name p proc z d z') : LooseStep (serverDoes name p) (· = .io) (forget z) d (forget z') := by
  cases h with
  | tick d => exact .tick (forget z) d
  | start i o h1 => exact .start (forget z) i o h1
  | finish i o r h1 => exact .finish (forget z) i o r h1
  | breaks q s => exact .breaks (forget z) _ _ rfl rfl
  | mends q s => exact .breaks (forget z) _ _ rfl rfl
  | run i o h1 => exact .run (forget z) i o h1
  | lose i o k r h1 => exact .lose (forget z) i o r _ h1 rfl
  | fail i o k h1 =>
    have := LooseStep.fail (does := serverDoes name p) (errs := (· = .io)) (forget z) i (proc i) (p k) o _ h1 rfl
    unfold forget at this ⊢
    dsimp only at this ⊢
    rw [List.map_append]
    exact this
  | late q s g o l1 l2 h1 =>
    have := LooseStep.late (does := serverDoes name p) (errs := (· = .io)) (forget z) q s o (l1.map plain) (l2.map plain) (by
      show z.adrift.map plain = _
      rw [h1, List.map_append]; rfl)
    unfold forget at this ⊢
    dsimp only at this ⊢
    rw [List.map_append]
    exact this

theorem forget_run {z0 z : Patched S} {l : List (Deed S Op)} (h : PatchedRun name p proc z0 l z) : LooseRun (serverDoes name p) (· = .io) (forget z0) l (forget z) := by
  induction h with
  | nil => exact .nil
  | snoc _ hs ih => exact .snoc ih (forget_step hs)

theorem patched_count {w : World S} {l : List (Deed S Op)} {z : Patched S} (h : PatchedRun name p proc (Patched.start w) l z) :
    carriedOut l + z.adrift.length ≤ (Spec.Wired.starts (seenOf l)).length := by
  obtain ⟨ws, -, h2⟩ := Wired.loose_count (w := w) (forget_run h)
  have : (forget z).adrift.length = z.adrift.length := List.length_map ..
  omega

theorem patched_limits {a : Mended S} {z z' : Patched S} (h : PatchRel p a z) {d : Deed S Op} (hs : PatchedStep name p proc z d z') {w : World S} {n : Nat}
    (hl : Limits w n z.world) (hc : ∀ s, (w s).nextCas + n + 1 < 2 ^ 63) : Limits w (n + carriedOut [d]) z'.world := by
  cases hs with
  | tick d => exact fun s => ⟨(hl s).1.tick d, (hl s).2⟩
  | start => exact hl
  | finish => exact hl
  | breaks => exact hl
  | mends => exact hl
  | lose => exact hl
  | fail => exact hl
  | run i o g1 =>
    have hi := h.now.each i
    rw [show (cur z).calls i = _ from g1] at hi
    obtain ⟨k, k1, k2⟩ : ∃ k, o.key? = some k ∧ GoodOp o := by
      generalize a.now.prog i = u at hi
      generalize a.now.result i = v at hi
      cases hi with
      | waits _ k _ k1 k2 => exact ⟨k, k1, k2⟩
    exact limits_does hl k2 k1 hc
  | late q s g o l1 l2 g1 =>
    obtain ⟨k1, k, k2, -⟩ := h.good (q, s, g, o) (by rw [g1]; simp)
    exact limits_does hl k1 k2 hc

theorem patchedRun_trans {z0 z1 z2 : Patched S} {l m : List (Deed S Op)} (h1 : PatchedRun name p proc z0 l z1) (h2 : PatchedRun name p proc z1 m z2) :
    PatchedRun name p proc z0 (l ++ m) z2 := by
  induction h2 with
  | nil => rw [List.append_nil]; exact h1
  | snoc _ hs ih => rw [← List.append_assoc]; exact .snoc ih hs

theorem mendedRun_trans {S M : Type} [DecidableEq S] {call : S → Op → Call Out} {method : M → Prog S} {proc : Nat → Nat} {z0 z1 z2 : Mended S} {l m : List (Deed S M)}
    (h1 : MendedRun call method proc z0 l z1) (h2 : MendedRun call method proc z1 m z2) : MendedRun call method proc z0 (l ++ m) z2 := by
  induction h2 with
  | nil => rw [List.append_nil]; exact h1
  | snoc _ hs ih => rw [← List.append_assoc]; exact .snoc ih hs

/-- A run up to some moment, in both. -/
structure Upto (name : S → Bytes) (p : Bytes → S) (proc : Nat → Nat) (w : World S) (l : List (Deed S Op)) (a : Mended S) (m : List (Deed S Op)) (z : Patched S) : Prop where
  run : PatchedRun name p proc (Patched.start w) m z
  seen : seenOf m = seenOf l
  count : carriedOut m = carriedOut l
  rel : PatchRel p a z
  limits : Limits w (carriedOut l) z.world

theorem patched_run (hpick : ∀ k, r.pick H k = .ok (p k)) {w : World S} {l l' : List (Deed S Op)} {a a' : Mended S} {m : List (Deed S Op)} {z : Patched S}
    (h0 : Upto name p proc w l a m z)
    (hl : MendedRun (fun s => textCall (name s)) (poolProg H name r order orderS) proc a l' a')
    (hops : ∀ x ∈ Spec.Wired.starts (seenOf (l ++ l')), GoodOp x.2 ∧ x.2.key? ≠ none)
    (hc : ∀ s, (w s).nextCas + (Spec.Wired.starts (seenOf (l ++ l'))).length + 1 < 2 ^ 63) :
    ∃ m' z', PatchedRun name p proc z m' z' ∧ seenOf m' = seenOf l' ∧ Upto name p proc w (l ++ l') a' (m ++ m') z' := by
  induction hl with
  | nil => exact ⟨[], z, .nil, rfl, by rw [List.append_nil, List.append_nil]; exact h0⟩
  | @snoc l' d a1 a2 _ hs ih =>
    rw [← List.append_assoc, Wired.seenOf_append, Wired.starts_append] at hops hc
    obtain ⟨m', z1, g1, g2, g3⟩ := ih (fun x hx => hops x (List.mem_append_left _ hx)) fun s => by
      have := hc s; rw [List.length_append] at this; omega
    have hcount := patched_count g3.run
    have hc' : ∀ s, (w s).nextCas + carriedOut (l ++ l') + 1 < 2 ^ 63 := fun s => by
      have := hc s
      rw [List.length_append] at this
      rw [g3.seen, g3.count] at hcount
      omega
    rcases patched_step hpick g3.rel hs (fun i o e => hops (i, o) (by subst e; exact List.mem_append_right _ (.head _)))
      (fun s => by rw [← g3.rel.now.world]; exact (g3.limits s).1) with ⟨z', k1, k2⟩ | ⟨⟨i, rfl⟩, k2⟩
    · refine ⟨m' ++ [d], z', .snoc g1 k1, by rw [Wired.seenOf_append, Wired.seenOf_append, g2], ?_⟩
      rw [← List.append_assoc, ← List.append_assoc]
      exact ⟨.snoc g3.run k1, by rw [Wired.seenOf_append, Wired.seenOf_append _ [d], g3.seen], by rw [Wired.carriedOut_append, Wired.carriedOut_append _ [d], g3.count], k2,
        by rw [Wired.carriedOut_append]; exact patched_limits g3.rel k1 g3.limits hc'⟩
    · refine ⟨m', z1, g1, by rw [Wired.seenOf_append, g2]; simp [seenOf], ?_⟩
      rw [← List.append_assoc]
      exact ⟨g3.run, by rw [Wired.seenOf_append _ [Deed.learn i], g3.seen]; simp [seenOf], by rw [Wired.carriedOut_append _ [Deed.learn i], g3.count]; rfl, k2,
        by rw [Wired.carriedOut_append]; exact g3.limits⟩

theorem upto_start (w : World S) (hw : ∀ s, GoodStore (w s)) : Upto name p proc w [] (Mended.start w) [] (Patched.start w) :=
  ⟨.nil, rfl, rfl, ⟨⟨rfl, rfl, fun _ => .none, fun _ _ => rfl, fun _ h => by cases h⟩, rfl, fun _ _ g hg => absurd hg (Nat.not_lt_zero _), fun _ h => (by cases h), fun _ h => (by cases h)⟩,
    fun s => ⟨hw s, Nat.le_refl _⟩⟩

/-! ### The theorems -/

/-- The situation: goroutines of any number of processes call methods of `SinglePool` on one key each; connections may
break at any moment, and be replaced by Reconnect. -/
structure PatchedUse (U : Setup S Op) (H : Hashes) (name : S → Bytes) (r : Ring S) (p : Bytes → S) (w : World S)
    (tr : List (Ev Op)) (x : State S) : Prop where
  conns : U.call = fun s => textCall (name s)
  methods : ∃ order orderS, U.method = poolProg H name r order orderS
  pick : ∀ k, r.pick H k = .ok (p k)
  run : Run U (State.init w) tr x
  ops : ∀ i o, (i, o) ∈ Spec.Wired.starts tr → GoodOp o ∧ o.key? ≠ none
  stores : ∀ s, GoodStore (w s)
  cas : ∀ s, (w s).nextCas + (Spec.Wired.starts tr).length + 1 < 2 ^ 63

section
variable {U : Setup S Op} {w : World S} {tr : List (Ev Op)} {x : State S}

theorem PatchedUse.upto (c : PatchedUse U H name r p w tr x) {l : List (Deed S Op)} {a : Mended S}
    (hl : MendedRun U.call U.method U.proc (Mended.start w) l a) (hv : seenOf l <+: tr) :
    ∃ m z, Upto name p U.proc w l a m z := by
  obtain ⟨order, orderS, hm⟩ := c.methods
  rw [c.conns, hm] at hl
  have hst := Wired.starts_prefix hv
  obtain ⟨m', z', -, -, h⟩ := patched_run c.pick (upto_start w c.stores) hl (fun x hx => c.ops x.1 x.2 (hst.subset hx)) fun s => by
    have := c.cas s
    have := hst.length_le
    rw [List.nil_append]
    omega
  exact ⟨m', z', h⟩

theorem PatchedUse.fine (c : PatchedUse U H name r p w tr x) {l : List (Deed S Op)} {a : Mended S}
    (hl : MendedRun U.call U.method U.proc (Mended.start w) l a) (hv : seenOf l <+: tr) : NextFine U.call a.now := by
  obtain ⟨m, z, h⟩ := c.upto hl hv
  rw [c.conns]
  exact h.rel.now.fine fun s => (h.limits s).1

/-- **C86**: what all processes see of their calls is what they could see if every method were carried out at one moment
between its call and its return by the server of its key, were it not that a method may return an error if the
connection in use between its process and that server is broken, and then it may have been carried out, or be carried out
later, even after a Reconnect, at most once, or never. -/
theorem C86_pool (c : PatchedUse U H name r p w tr x) :
    ∃ l z, PatchedRun name p U.proc (Patched.start w) l z ∧ seenOf l = tr ∧ carriedOut l = x.calls ∧ z.world = x.world
      ∧ (∀ q s, z.broken q s ↔ Broken x q s) ∧ (∀ q s, z.era q s = successes (x.line q s).conn.log)
      ∧ ∀ i, z.calls i = none ↔ x.prog i = none := by
  obtain ⟨l, a, h1, h2, h3, h4, h5, h6, h7⟩ := C86_refines (.inl ⟨name, c.conns⟩) c.run fun l a hl hv _ => c.fine hl hv
  obtain ⟨m, z, g⟩ := c.upto h1 (by rw [h2]; exact List.prefix_refl _)
  refine ⟨m, z, g.run, g.seen.trans h2, g.count.trans h3, g.rel.now.world.trans h4, fun q s => ?_, fun q s => ?_, fun i => by rw [← h5]; exact (g.rel.now.each i).none_iff⟩
  · rw [← h6 q s, ← g.rel.now.broken]; rfl
  · rw [g.rel.era]; exact h7 q s

/-- **C86**: no call is carried out twice, Reconnect or not: memcached has carried out no more commands than methods were
called. -/
theorem C86_at_most_once (c : PatchedUse U H name r p w tr x) : x.calls ≤ (Spec.Wired.starts tr).length := by
  obtain ⟨l, z, h1, h2, h3, -⟩ := C86_pool c
  have h := patched_count h1
  rw [h2, h3] at h
  omega

/-- **C86**, a counter: as C85_counter, with connections that break and are replaced. -/
theorem C86_counter (c : PatchedUse U H name r p w tr x) {k : Bytes} {e : Entry} {m : Nat} (he : (w (p k)).data k = some e) (hx : e.expiry = none)
    (hm : counterOf e.value = some m) (hops : ∀ i o, (i, o) ∈ Spec.Wired.starts tr → ∃ e, o = .increment k 1 e)
    (hb : m + (Spec.Wired.starts tr).length < 2 ^ 63) :
    ∃ e' v, (x.world (p k)).find k = some e' ∧ counterOf e'.value = some v
      ∧ m + (Spec.Wired.numbers tr).length ≤ v ∧ v ≤ m + (Spec.Wired.starts tr).length
      ∧ (Spec.Wired.numbers tr).Nodup ∧ (∀ n ∈ Spec.Wired.numbers tr, (m : Int) < n ∧ n ≤ v)
      ∧ ∀ i r, .finish i r ∈ tr → r = .err .io ∨ ∃ n, r = .ok (.num n) := by
  obtain ⟨l, z, h1, h2, h3, h4, -⟩ := C86_pool c
  have t := Wired.ticking (w := w) (Wired.adds_text k) he hx hm (forget_run h1) (by rw [h2]; exact hops) (by rw [h2]; exact hb)
  have hone := C86_at_most_once c
  rw [h2, h3] at t
  obtain ⟨e', g1, g2, g3⟩ := t.value
  rw [show (forget z).world = x.world from h4] at g1
  refine ⟨e', _, find_forever g1 g2, g3, ?_, by omega, t.fresh, t.shown, fun i r h => (t.seen i r h).imp (fun ⟨e, h1, h2⟩ => h1 ▸ h2) id⟩
  have := Wired.few_numbers t.fresh t.shown
  omega

/-- **C86**, a lock: as C85_lock, with connections that break and are replaced: at most one is told that it succeeded, and
if one is, the key is there. -/
theorem C86_lock (c : PatchedUse U H name r p w tr x) {k : Bytes}
    (hops : ∀ i o, (i, o) ∈ Spec.Wired.starts tr → ∃ it : Item, o = .add it ∧ it.key = k ∧ it.expiration = 0) :
    (Spec.Wired.winners tr).length ≤ 1 ∧ (Spec.Wired.winners tr ≠ [] → ∃ e, (x.world (p k)).find k = some e) := by
  obtain ⟨l, z, h1, h2, h3, h4, -⟩ := C86_pool c
  have t := Wired.locking (w := w) (k := k) Wired.locks_text (forget_run h1) (by rw [h2]; exact hops)
  rw [h2] at t
  refine ⟨?_, fun g => ?_⟩
  · rcases t.few with g | ⟨g, -⟩
    · rw [g]; exact Nat.zero_le _
    · omega
  · obtain ⟨e, g1, g2⟩ := t.taken (.inl g)
    rw [show (forget z).world = x.world from h4] at g1
    exact ⟨e, find_forever g1 g2⟩
end

end Rewired
end Verif
