import Verif.Props.RewiredPool
/-!
C86: which methods return connection errors.
-/

namespace Verif
namespace Rewired
open Kv Spec Mc Pool Cluster Props
open Wired (Setup Ev FrailRel Clients)

variable {S : Type} [DecidableEq S] {H : Hashes} {name : S → Bytes} {r : Ring S} {p : Bytes → S} {proc : Nat → Nat}

/-- The connection is broken or has been replaced since. -/
def Mishap (z0 z : Patched S) (q : Nat) (s : S) : Prop := z.broken q s ∨ z0.era q s < z.era q s

theorem mishap_step {z0 z z' : Patched S} {d : Deed S Op} (hs : PatchedStep name p proc z d z') (he : ∀ q s, z0.era q s ≤ z.era q s) :
    (∀ q s, z0.era q s ≤ z'.era q s) ∧ ∀ q s, Mishap z0 z q s → Mishap z0 z' q s := by
  cases hs with
  | tick => exact ⟨he, fun _ _ h => h⟩
  | start => exact ⟨he, fun _ _ h => h⟩
  | finish => exact ⟨he, fun _ _ h => h⟩
  | run => exact ⟨he, fun _ _ h => h⟩
  | lose => exact ⟨he, fun _ _ h => h⟩
  | fail => exact ⟨he, fun _ _ h => h⟩
  | late => exact ⟨he, fun _ _ h => h⟩
  | breaks q s => exact ⟨he, fun _ _ h => h.imp_left .inl⟩
  | mends q s h1 =>
    have key : ∀ q' s', z.era q' s' ≤ (if q' = q ∧ s' = s then z.era q s + 1 else z.era q' s') := fun q' s' => by
      by_cases e : q' = q ∧ s' = s
      · rw [if_pos e, e.1, e.2]; exact Nat.le_succ _
      · rw [if_neg e]; exact Nat.le_refl _
    refine ⟨fun q' s' => Nat.le_trans (he q' s') (key q' s'), fun q' s' h => ?_⟩
    by_cases e : q' = q ∧ s' = s
    · refine .inr ?_
      show _ < (if q' = q ∧ s' = s then z.era q s + 1 else z.era q' s')
      rw [if_pos e]
      have := he q' s'
      rw [e.1, e.2] at this ⊢
      omega
    · exact h.imp (fun h => ⟨h, e⟩) fun h => Nat.lt_of_lt_of_le h (key q' s')

theorem patched_errors {z0 z : Patched S} {i : Nat} (h0 : z0.calls i = none) {l : List (Deed S Op)} (h : PatchedRun name p proc z0 l z) :
    (∀ q s, z0.era q s ≤ z.era q s) ∧ (∀ o x, z.calls i = some (o, x) → (i, o) ∈ Spec.Wired.starts (seenOf l))
      ∧ (∀ o, z.calls i = some (o, some (.err .io)) → ∃ k, o.key? = some k ∧ Mishap z0 z (proc i) (p k))
      ∧ (.finish i (.err .io) ∈ seenOf l → ∃ o k, (i, o) ∈ Spec.Wired.starts (seenOf l) ∧ o.key? = some k ∧ Mishap z0 z (proc i) (p k)) := by
  induction h with
  | nil => exact ⟨fun _ _ => Nat.le_refl _, fun _ _ h => (by rw [h0] at h; cases h), fun _ h => (by rw [h0] at h; cases h), fun h => (by cases h)⟩
  | @snoc l d z z' _ hs ih =>
    obtain ⟨g0, g1, g2, g3⟩ := ih
    obtain ⟨m1, m2⟩ := mishap_step hs g0
    rw [Wired.seenOf_append, Wired.starts_append]
    refine ⟨m1, ?_⟩
    -- what was so before
    have up1 : ∀ {es : List (Nat × Op)} o x, z.calls i = some (o, x) → (i, o) ∈ Spec.Wired.starts (seenOf l) ++ es := fun o x h => List.mem_append_left _ (g1 o x h)
    have up2 : ∀ o, z.calls i = some (o, some (.err .io)) → ∃ k, o.key? = some k ∧ Mishap z0 z' (proc i) (p k) := fun o h => by
      obtain ⟨k, k1, k2⟩ := g2 o h
      exact ⟨k, k1, m2 _ _ k2⟩
    have up3 : ∀ {es : List (Nat × Op)} {ev : List (Ev Op)}, .finish i (.err .io) ∉ ev → .finish i (.err .io) ∈ seenOf l ++ ev →
        ∃ o k, (i, o) ∈ Spec.Wired.starts (seenOf l) ++ es ∧ o.key? = some k ∧ Mishap z0 z' (proc i) (p k) := fun hn h => by
      obtain ⟨o, k, k1, k2, k3⟩ := g3 ((List.mem_append.1 h).resolve_right hn)
      exact ⟨o, k, List.mem_append_left _ k1, k2, m2 _ _ k3⟩
    cases hs with
    | tick => exact ⟨up1, up2, up3 (by simp [seenOf])⟩
    | breaks => exact ⟨up1, up2, up3 (by simp [seenOf])⟩
    | mends => exact ⟨up1, up2, up3 (by simp [seenOf])⟩
    | late => exact ⟨up1, up2, up3 (by simp [seenOf])⟩
    | start j o k1 =>
      refine ⟨fun o' x h => ?_, fun o' h => ?_, up3 (by simp [seenOf])⟩
      · have h : (if i = j then some (o, none) else z.calls i) = some (o', x) := h
        by_cases e : i = j
        · rw [if_pos e] at h; cases h; subst e; exact List.mem_append_right _ (.head _)
        · rw [if_neg e] at h; exact up1 _ _ h
      · have h : (if i = j then some (o, none) else z.calls i) = some (o', some (.err .io)) := h
        by_cases e : i = j
        · rw [if_pos e] at h; cases h
        · rw [if_neg e] at h; exact up2 _ h
    | finish j o y k1 =>
      refine ⟨fun o' x h => ?_, fun o' h => ?_, fun h => ?_⟩
      · have h : (if i = j then none else z.calls i) = some (o', x) := h
        by_cases e : i = j
        · rw [if_pos e] at h; cases h
        · rw [if_neg e] at h; exact up1 _ _ h
      · have h : (if i = j then none else z.calls i) = some (o', some (.err .io)) := h
        by_cases e : i = j
        · rw [if_pos e] at h; cases h
        · rw [if_neg e] at h; exact up2 _ h
      · rcases List.mem_append.1 h with h | h
        · exact up3 (ev := []) nofun (List.mem_append_left _ h)
        · have e := List.mem_singleton.1 h
          injection e with e1 e2
          subst e1 e2
          obtain ⟨k, k2, k3⟩ := up2 o k1
          exact ⟨o, k, up1 o _ k1, k2, k3⟩
    | run j o k1 =>
      refine ⟨fun o' x h => ?_, fun o' h => ?_, up3 (by simp [seenOf])⟩
      · have h : (if i = j then some (o, some (serverDoes name p z.world o).1) else z.calls i) = some (o', x) := h
        by_cases e : i = j
        · rw [if_pos e] at h; cases h; subst e; exact up1 _ _ k1
        · rw [if_neg e] at h; exact up1 _ _ h
      · have h : (if i = j then some (o, some (serverDoes name p z.world o).1) else z.calls i) = some (o', some (.err .io)) := h
        by_cases e : i = j
        · rw [if_pos e] at h
          injection h with h; injection h with _ h; injection h with h
          exact absurd h (Wired.serverDoes_not_io _ _)
        · rw [if_neg e] at h; exact up2 _ h
    | lose j o k y k1 k2 k3 =>
      refine ⟨fun o' x h => ?_, fun o' h => ?_, up3 (by simp [seenOf])⟩
      · have h : (if i = j then some (o, some (.err .io)) else z.calls i) = some (o', x) := h
        by_cases e : i = j
        · rw [if_pos e] at h; cases h; subst e; exact up1 _ _ k1
        · rw [if_neg e] at h; exact up1 _ _ h
      · have h : (if i = j then some (o, some (.err .io)) else z.calls i) = some (o', some (.err .io)) := h
        by_cases e : i = j
        · rw [if_pos e] at h; cases h; subst e; exact ⟨k, k2, m2 _ _ (.inl k3)⟩
        · rw [if_neg e] at h; exact up2 _ h
    | fail j o k k1 k2 k3 =>
      refine ⟨fun o' x h => ?_, fun o' h => ?_, up3 (by simp [seenOf])⟩
      · have h : (if i = j then some (o, some (.err .io)) else z.calls i) = some (o', x) := h
        by_cases e : i = j
        · rw [if_pos e] at h; cases h; subst e; exact up1 _ _ k1
        · rw [if_neg e] at h; exact up1 _ _ h
      · have h : (if i = j then some (o, some (.err .io)) else z.calls i) = some (o', some (.err .io)) := h
        by_cases e : i = j
        · rw [if_pos e] at h; cases h; subst e; exact ⟨k, k2, m2 _ _ (.inl k3)⟩
        · rw [if_neg e] at h; exact up2 _ h

section
variable {U : Setup S Op} {w : World S} {tr1 tr2 : List (Ev Op)} {x1 x2 : State S}

theorem Run.trans {M : Type} {U : Setup S M} {w0 w1 w2 : State S} {t1 t2 : List (Ev M)} (h1 : Run U w0 t1 w1) (h2 : Run U w1 t2 w2) : Run U w0 (t1 ++ t2) w2 := by
  induction h2 with
  | nil => rw [List.append_nil]; exact h1
  | snoc _ hs ih => rw [← List.append_assoc]; exact .snoc ih hs

/-- **C86**: look at any part of a run, from a moment `x1` at which goroutine `i` is in no method to a moment `x2`.  If a
method that `i` calls and that returns in between returns a connection error, then the connection between its process and the
server of a key that it used in between is broken at the end, or has been replaced in between.  (So methods called after a
Reconnect has succeeded return no connection errors until the new connection breaks.) -/
theorem C86_error_broken (c : PatchedUse U H name r p w (tr1 ++ tr2) x2) (h1 : Run U (State.init w) tr1 x1) (h2 : Run U x1 tr2 x2)
    {i : Nat} (hi : x1.prog i = none) (hf : .finish i (.err .io) ∈ tr2) :
    ∃ o k, (i, o) ∈ Spec.Wired.starts tr2 ∧ o.key? = some k
      ∧ (Broken x2 (U.proc i) (p k) ∨ successes (x1.line (U.proc i) (p k)).conn.log < successes (x2.line (U.proc i) (p k)).conn.log) := by
  have hU : Clients U := .inl ⟨name, c.conns⟩
  obtain ⟨l1, a1, ph1, g1, g2, g3, g4⟩ := resim_run hU.readers h1 (resim_init U w) fun l a hl hv _ => c.fine hl (hv.trans (List.prefix_append _ _))
  obtain ⟨l2, a2, ph2, k1, k2, k3, k4⟩ := resim_run hU.readers h2 g4 fun l a hl hv _ => c.fine (mendedRun_trans g1 hl) (by
    rw [Wired.seenOf_append, g2]
    exact (List.prefix_append_right_inj _).2 hv)
  obtain ⟨m1, z1, u1⟩ := c.upto g1 (by rw [g2]; exact List.prefix_append _ _)
  obtain ⟨order, orderS, hm⟩ := c.methods
  have hl := k1
  rw [c.conns, hm] at hl
  obtain ⟨m2, z2, v1, v2, v3⟩ := patched_run c.pick u1 hl (by rw [Wired.seenOf_append, g2, k2]; exact fun x hx => c.ops x.1 x.2 hx) (by
    rw [Wired.seenOf_append, g2, k2]; exact c.cas)
  have hz : z1.calls i = none := by
    have e := u1.rel.now.each i
    have hi' : a1.now.prog i = none := by rw [g4.now.prog]; exact hi
    rw [hi'] at e
    show (cur z1).calls i = none
    generalize (cur z1).calls i = u at e
    generalize a1.now.result i = v at e
    cases e
    rfl
  obtain ⟨-, -, -, h⟩ := patched_errors hz v1
  rw [v2, k2] at h
  obtain ⟨o, k, b1, b2, b3⟩ := h hf
  refine ⟨o, k, b1, b2, b3.imp (fun b => ?_) fun b => ?_⟩
  · have : a2.now.down (U.proc i) (p k) := by rw [← v3.rel.now.broken]; exact b
    rw [k4.now.down] at this
    have this : ((x2.line (U.proc i) (p k)).conn.cur.ended || !(x2.line (U.proc i) (p k)).conn.cur.isOpen) = true := this
    unfold Broken
    simpa using this
  · rw [u1.rel.era, v3.rel.era, g4.era, k4.era, (g4.inv _ _).gen.num, (k4.inv _ _).gen.num] at b
    exact b
end

end Rewired
end Verif
