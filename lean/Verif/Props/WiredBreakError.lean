import Verif.Props.WiredDurable
import Verif.Props.RewiredUse
/-!
C85 and C86: which calls return connection errors, call by call.
-/

namespace Verif
namespace Wired
open Kv Spec Mc Pool Cluster Props

variable {S : Type} [DecidableEq S] {H : Hashes} {name : S → Bytes} {r : Ring S} {p : Bytes → S} {proc : Nat → Nat}

/-- The result of goroutine `t` that has not returned is the one of the call it is in. -/
theorem same_method {z : Nat → Option (Op × Option (Res Out))} {i t : Nat} {o : Op} {u v : Option (Res Out)} (hi : z i = some (o, u)) (o' : Op)
    (h : ∃ v', z t = some (o', v')) : ∃ v', (if t = i then some (o, v) else z t) = some (o', v') := by
  obtain ⟨v', hj⟩ := h
  by_cases e : t = i
  · subst e
    rw [hi] at hj
    injection hj with hj
    injection hj with e1 e2
    subst e1
    exact ⟨v, if_pos rfl⟩
  · exact ⟨v', by rw [if_neg e]; exact hj⟩

theorem no_event {tr : List (Ev Op)} {e : Ev Op} {i : Nat} {o : Op} {y : Res Out} (he : ∀ y, e ≠ .finish i y)
    (h : Spec.Wired.Answered (tr ++ [e]) i o y) : Spec.Wired.Answered tr i o y :=
  (answered_snoc h).resolve_left fun g => he _ g.1

theorem frail_answered {w : World S} {l : List (Deed S Op)} {z : Frail S} (h : FrailRun name p proc (Frail.start w) l z) (t : Nat) :
    (∀ o, Spec.Wired.Under (seenOf l) t o → ∃ v, z.calls t = some (o, v))
      ∧ ∀ o, Spec.Wired.Answered (seenOf l) t o (.err .io) → ∃ k, o.key? = some k ∧ z.broken (proc t) (p k) := by
  induction h with
  | nil =>
    refine ⟨fun o hu => ?_, fun o hy => ?_⟩
    · obtain ⟨t1, t2, h, -⟩ := hu
      cases t1 <;> cases h
    · obtain ⟨t1, t2, h, -⟩ := hy
      cases t1 <;> cases h
  | @snoc l d z z' hl hs ih =>
    obtain ⟨h0, h2⟩ := ih
    have h1 := (frail_errors hl).1 t
    rw [seenOf_append]
    cases hs with
    | tick d =>
      refine ⟨fun o hu => ?_, fun o hy => h2 o (no_event (fun _ h => by cases h) hy)⟩
      rcases under_snoc hu with e | ⟨hu, -⟩
      · cases e
      · exact h0 o hu
    | start i o g1 =>
      refine ⟨fun o' hu => ?_, fun o' hy => h2 o' (no_event (fun _ h => by cases h) hy)⟩
      rcases under_snoc hu with e | ⟨hu, -⟩
      · injection e with e1 e2
        subst e1 e2
        exact ⟨none, if_pos rfl⟩
      · obtain ⟨v, hv⟩ := h0 o' hu
        refine ⟨v, ?_⟩
        show (if t = i then _ else z.calls t) = _
        rw [if_neg (by rintro rfl; rw [g1] at hv; cases hv)]
        exact hv
    | finish i o y g1 =>
      refine ⟨fun o' hu => ?_, fun o' hy => ?_⟩
      · rcases under_snoc hu with e | ⟨hu, hn⟩
        · cases e
        · obtain ⟨v, hv⟩ := h0 o' hu
          refine ⟨v, ?_⟩
          show (if t = i then none else z.calls t) = _
          rw [if_neg (by rintro rfl; exact hn _ rfl)]
          exact hv
      · rcases answered_snoc hy with ⟨e, hu⟩ | hy
        · injection e with e1 e2
          subst e1 e2
          obtain ⟨v, hv⟩ := h0 o' hu
          rw [g1] at hv
          injection hv with hv
          injection hv with e1 e2
          subst e1
          exact h1 _ g1
        · exact h2 o' hy
    | breaks n s =>
      rw [show seenOf [Deed.breaks (M := Op) n s] = [] from rfl, List.append_nil]
      refine ⟨h0, fun o hy => ?_⟩
      obtain ⟨k, k1, k2⟩ := h2 o hy
      exact ⟨k, k1, .inl k2⟩
    | run i o g1 =>
      rw [show seenOf [Deed.run (S := S) (M := Op) i] = [] from rfl, List.append_nil]
      exact ⟨fun o' hu => same_method g1 o' (h0 o' hu), h2⟩
    | lose i o k y g1 g2 g3 =>
      rw [show seenOf [Deed.lose (S := S) (M := Op) i] = [] from rfl, List.append_nil]
      exact ⟨fun o' hu => same_method g1 o' (h0 o' hu), h2⟩
    | fail i o k g1 g2 g3 =>
      rw [show seenOf [Deed.fail (S := S) (M := Op) i] = [] from rfl, List.append_nil]
      exact ⟨fun o' hu => same_method g1 o' (h0 o' hu), h2⟩
    | late q s o l1 l2 g1 =>
      rw [show seenOf [Deed.late (M := Op) q s] = [] from rfl, List.append_nil]
      exact ⟨h0, h2⟩

/-- **C85**: a method on key `k` returns a connection error only if the connection of its process to the server of `k`
is broken. -/
theorem C85_error_exact {U : Setup S Op} {w : World S} {tr : List (Ev Op)} {x : State S} (c : FrailUse U H name r p w tr x) {i : Nat} {o : Op}
    (h : Spec.Wired.Answered tr i o (.err .io)) : ∃ k, o.key? = some k ∧ (x.line (U.proc i) (p k)).conn.ended = true := by
  obtain ⟨l, z, h1, h2, -, -, h5, -⟩ := C85_pool c
  obtain ⟨k, g1, g2⟩ := (frail_answered h1 i).2 o (by rw [h2]; exact h)
  exact ⟨k, g1, (h5 _ _).1 g2⟩

end Wired

namespace Rewired
open Kv Spec Mc Pool Cluster Props
open Wired (Setup Ev FrailRel Clients no_event same_method under_snoc answered_snoc)

variable {S : Type} [DecidableEq S] {H : Hashes} {name : S → Bytes} {r : Ring S} {p : Bytes → S} {proc : Nat → Nat}

theorem patched_answered {z0 z : Patched S} {t : Nat} (ht : z0.calls t = none) {l : List (Deed S Op)} (h : PatchedRun name p proc z0 l z) :
    (∀ o, Spec.Wired.Under (seenOf l) t o → ∃ v, z.calls t = some (o, v))
      ∧ ∀ o, Spec.Wired.Answered (seenOf l) t o (.err .io) → ∃ k, o.key? = some k ∧ Mishap z0 z (proc t) (p k) := by
  induction h with
  | nil =>
    refine ⟨fun o hu => ?_, fun o hy => ?_⟩
    · obtain ⟨t1, t2, h, -⟩ := hu
      cases t1 <;> cases h
    · obtain ⟨t1, t2, h, -⟩ := hy
      cases t1 <;> cases h
  | @snoc l d z z' hl hs ih =>
    obtain ⟨h0, h3⟩ := ih
    obtain ⟨he, -, h1, -⟩ := patched_errors ht hl
    obtain ⟨-, hm⟩ := mishap_step hs he
    have h2 : ∀ o, Spec.Wired.Answered (seenOf l) t o (.err .io) → ∃ k, o.key? = some k ∧ Mishap z0 z' (proc t) (p k) := fun o hy => by
      obtain ⟨k, k1, k2⟩ := h3 o hy
      exact ⟨k, k1, hm _ _ k2⟩
    rw [Wired.seenOf_append]
    cases hs with
    | tick d =>
      refine ⟨fun o hu => ?_, fun o hy => h2 o (no_event (fun _ h => by cases h) hy)⟩
      rcases under_snoc hu with e | ⟨hu, -⟩
      · cases e
      · exact h0 o hu
    | start i o g1 =>
      refine ⟨fun o' hu => ?_, fun o' hy => h2 o' (no_event (fun _ h => by cases h) hy)⟩
      rcases under_snoc hu with e | ⟨hu, -⟩
      · injection e with e1 e2
        subst e1 e2
        exact ⟨none, if_pos rfl⟩
      · obtain ⟨v, hv⟩ := h0 o' hu
        refine ⟨v, ?_⟩
        show (if t = i then _ else z.calls t) = _
        rw [if_neg (by rintro rfl; rw [g1] at hv; cases hv)]
        exact hv
    | finish i o y g1 =>
      refine ⟨fun o' hu => ?_, fun o' hy => ?_⟩
      · rcases under_snoc hu with e | ⟨hu, hn⟩
        · cases e
        · obtain ⟨v, hv⟩ := h0 o' hu
          refine ⟨v, ?_⟩
          show (if t = i then none else z.calls t) = _
          rw [if_neg (by rintro rfl; exact hn _ rfl)]
          exact hv
      · rcases answered_snoc hy with ⟨e, hu⟩ | hy
        · injection e with e1 e2
          subst e1 e2
          obtain ⟨v, hv⟩ := h0 o' hu
          rw [g1] at hv
          injection hv with hv
          injection hv with e1 e2
          subst e1
          exact h1 _ g1
        · exact h2 o' hy
    | breaks n s =>
      rw [show seenOf [Deed.breaks (M := Op) n s] = [] from rfl, List.append_nil]
      exact ⟨h0, h2⟩
    | mends n s =>
      rw [show seenOf [Deed.mends (M := Op) n s] = [] from rfl, List.append_nil]
      exact ⟨h0, h2⟩
    | run i o g1 =>
      rw [show seenOf [Deed.run (S := S) (M := Op) i] = [] from rfl, List.append_nil]
      exact ⟨fun o' hu => same_method g1 o' (h0 o' hu), h2⟩
    | lose i o k y g1 g2 g3 =>
      rw [show seenOf [Deed.lose (S := S) (M := Op) i] = [] from rfl, List.append_nil]
      exact ⟨fun o' hu => same_method g1 o' (h0 o' hu), h2⟩
    | fail i o k g1 g2 g3 =>
      rw [show seenOf [Deed.fail (S := S) (M := Op) i] = [] from rfl, List.append_nil]
      exact ⟨fun o' hu => same_method g1 o' (h0 o' hu), h2⟩
    | late q s g o l1 l2 g1 =>
      rw [show seenOf [Deed.late (M := Op) q s] = [] from rfl, List.append_nil]
      exact ⟨h0, h2⟩

/-- **C86**: look at any part of a run, from a moment `x1` at which goroutine `i` is in no method to a moment `x2`.  If a
method on key `k` that it calls and that returns in between returns a connection error, then the connection between its
process and the server of `k` is broken at the end, or has been replaced in between. -/
theorem C86_error_exact {U : Setup S Op} {w : World S} {tr1 tr2 : List (Ev Op)} {x1 x2 : State S} (c : PatchedUse U H name r p w (tr1 ++ tr2) x2)
    (h1 : Run U (State.init w) tr1 x1) (h2 : Run U x1 tr2 x2) {i : Nat} (hi : x1.prog i = none) {o : Op}
    (ho : Spec.Wired.Answered tr2 i o (.err .io)) :
    ∃ k, o.key? = some k
      ∧ (Broken x2 (U.proc i) (p k) ∨ successes (x1.line (U.proc i) (p k)).conn.log < successes (x2.line (U.proc i) (p k)).conn.log) := by
  have hU : Clients U := .inl ⟨name, c.conns⟩
  obtain ⟨l1, a1, ph1, g1, g2, g3, g4⟩ := resim_run hU.readers h1 (resim_init U w) fun l a hl hv _ => c.fine hl (hv.trans (List.prefix_append _ _))
  obtain ⟨l2, a2, ph2, k1, k2, k3, k4⟩ := resim_run hU.readers h2 g4 fun l a hl hv _ => c.fine (mendedRun_trans g1 hl) (by
    rw [Wired.seenOf_append, g2]
    exact (List.prefix_append_right_inj _).2 hv)
  obtain ⟨m1, z1, u1⟩ := c.upto g1 (by rw [g2]; exact List.prefix_append _ _)
  obtain ⟨order, orderS, hm⟩ := c.methods
  have hl := k1
  rw [c.conns, hm] at hl
  obtain ⟨m2, z2, v1, v2, v3⟩ := patched_run c.pick u1 hl (by rw [Wired.seenOf_append, g2, k2]; exact fun x hx => c.ops x.1 x.2 hx) (by
    rw [Wired.seenOf_append, g2, k2]; exact c.cas)
  have hz : z1.calls i = none := (u1.rel.now.each i).none_iff.2 (by show a1.now.prog i = none; rw [g4.now.prog]; exact hi)
  obtain ⟨k, b2, b3⟩ := (patched_answered hz v1).2 o (by rw [v2, k2]; exact ho)
  refine ⟨k, b2, b3.imp (fun b => ?_) fun b => ?_⟩
  · have : a2.now.down (U.proc i) (p k) := by rw [← v3.rel.now.broken]; exact b
    rw [k4.now.down] at this
    have this : ((x2.line (U.proc i) (p k)).conn.cur.ended || !(x2.line (U.proc i) (p k)).conn.cur.isOpen) = true := this
    unfold Broken
    simpa using this
  · rw [u1.rel.era, v3.rel.era, g4.era, k4.era, (g4.inv _ _).gen.num, (k4.inv _ _).gen.num] at b
    exact b

end Rewired
end Verif
