import Verif.Props.WiredCalls
import Verif.Props.ReplicaLinear
/-!
C84: replica pools used by the goroutines of any number of processes, with all that happens on their connections.
-/

namespace Verif
namespace Wired
open Kv Spec Mc Pool Cluster Props

variable {S : Type} [DecidableEq S]

/-- **C84**: pool methods called by any number of goroutines in any number of processes, each process with one
connection per server, shared by its goroutines.  Every run, with all the steps on the connections, is for the callers
and for the servers one in which each call on a server is carried out at one moment: the same methods are called and
return the same results in the same order, the servers hold the same, and as many calls were carried out. -/
theorem C84_refines {M : Type} {U : Setup S M} (hU : (∃ name : S → Bytes, U.call = fun s => textCall (name s)) ∨ U.call = fun _ => metaCall)
    {w : World S} {tr : List (Ev M)} {x : State S} (hr : Run U (State.init w) tr x) (up : Spec.Wired.Up x)
    (hp : ∀ l a, MomentRun U.call U.method ⟨w, fun _ => none⟩ l a → visible l <+: tr → runs l ≤ x.calls → NextProper U.call a) :
    ∃ l a, MomentRun U.call U.method ⟨w, fun _ => none⟩ l a ∧ visible l = tr ∧ runs l = x.calls ∧ Matches x a := by
  have hU' : Readers U := by
    rcases hU with ⟨name, h⟩ | h
    · exact text_readers h
    · exact meta_readers h
  obtain ⟨l, a, h1, h2, h3, h4⟩ := sim_run hU' hr up (sim_init U w) (fun l a hl hv hc => hp l a hl hv (by
    have : (State.init w : State S).calls = 0 := rfl
    omega))
  exact ⟨l, a, h1, h2, by have : (State.init w : State S).calls = 0 := rfl
                          omega, h4.matches⟩

/-! ### Replica pools -/

/-- Goroutine by goroutine: what the pool does and what was carried out. -/
inductive Step1 (H : Hashes) (r : ReplicaPool S) (p q : Bytes → S) : Option (Prog S) → Option (Op × Option (Res Out)) → Prop where
  | none : Step1 H r p q none none
  | called (o : Op) : PlainOp o → Step1 H r p q (some (replicaProg H r o)) (some (o, none))
  | did (o : Op) (res : Res Out) (pr : Prog S) : PlainOp o → Stage H r p q o res pr → Step1 H r p q (some pr) (some (o, some res))

structure RepSim (H : Hashes) (r : ReplicaPool S) (p q : Bytes → S) (n : Nat) (a : Moment S) (z : Ideal S) : Prop where
  healthy : Healthy a.world n
  same : ∀ k, a.world (p k) = z.world (p k)
  each : ∀ i, Step1 H r p q (a.prog i) (z.calls i)

theorem meta_callOn (s : S) (op : Op) (w : World S) : callOn (fun _ => metaCall) s op some w = callStep s op w := rfl

theorem stage_good {H : Hashes} {r : ReplicaPool S} {p q : Bytes → S} {o : Op} {res : Res Out} {s : S} {op : Op} {f : Res Out → Prog S}
    (h : Stage H r p q o res (.call s op f)) (st : Store) : GoodMetaOp st op ∧ ∀ ks, op ≠ .getMulti ks := by
  cases h with
  | copy k o2 hk hc hf hres =>
    refine ⟨copies_good hc st, ?_⟩
    rcases hc with ⟨i, rfl, -⟩ | ⟨k, rfl, -⟩ <;> simp
  | read k hk n ho hres => exact ⟨hk, by simp⟩
  | write k n ho hres item hi => exact ⟨hi, by simp⟩

theorem RepSim.proper {H : Hashes} {r : ReplicaPool S} {p q : Bytes → S} (hp : ∀ k, r.primary.pick H k = .ok (p k))
    (hq : ∀ k, r.secondary.pick H k = .ok (q k)) {n : Nat} {a : Moment S} {z : Ideal S} (h : RepSim H r p q n a z) :
    NextProper (fun _ => metaCall) a := by
  intro i s op f hi
  have he := h.each i
  rw [hi] at he
  generalize hx : some (Prog.call s op f) = x at he
  generalize z.calls i = y at he
  cases he with
  | none => cases hx
  | called o ho =>
    obtain ⟨k, f', h1, h2, h3, -⟩ := stage_first hp hq ho
    rw [h2] at hx
    injection hx with hx
    injection hx with e1 e2 e3
    subst e2
    exact meta_proper (h.healthy.1 s).1 (h3 _) (by rintro ks rfl; exact ho)
  | did o res pr ho hst =>
    injection hx with hx
    subst hx
    obtain ⟨g1, g2⟩ := stage_good hst (a.world s)
    exact meta_proper (h.healthy.1 s).1 g1 g2

theorem rep_step {H : Hashes} {r : ReplicaPool S} {p q : Bytes → S} (hp : ∀ k, r.primary.pick H k = .ok (p k))
    (hq : ∀ k, r.secondary.pick H k = .ok (q k)) (hpq : ∀ k k', p k ≠ q k') {n : Nat} {a a' : Moment S} {x : Doings Op} {z : Ideal S}
    (h : RepSim H r p q (n + runs [x]) a z) (hs : MomentStep (fun _ => metaCall) (replicaProg H r) a x a')
    (hx : ∀ i o, x = .ev (.start i o) → PlainOp o) :
    (∃ z', IdealStep p z x z' ∧ RepSim H r p q n a' z') ∨ visible [x] = [] ∧ RepSim H r p q n a' z := by
  have other : ∀ {i : Nat} {u : Option (Prog S)} {v : Option (Op × Option (Res Out))}, Step1 H r p q u v →
      ∀ j, Step1 H r p q (if j = i then u else a.prog j) (if j = i then v else z.calls j) := by
    intro i u v huv j
    by_cases hj : j = i
    · rw [if_pos hj, if_pos hj]; exact huv
    · rw [if_neg hj, if_neg hj]; exact h.each j
  have other' : ∀ {i : Nat} {u : Option (Prog S)}, Step1 H r p q u (z.calls i) →
      ∀ j, Step1 H r p q (if j = i then u else a.prog j) (z.calls j) := by
    intro i u huv j
    by_cases hj : j = i
    · rw [if_pos hj, hj]; exact huv
    · rw [if_neg hj]; exact h.each j
  cases hs with
  | tick d =>
    exact .inl ⟨_, .tick z d, healthy_tick h.healthy d, fun k => by
      show (a.world (p k)).tick d = (z.world (p k)).tick d
      rw [h.same], h.each⟩
  | start i o h1 =>
    have hz : z.calls i = none := by
      have := h.each i
      rw [h1] at this
      generalize z.calls i = y at this
      cases this; rfl
    exact .inl ⟨_, .start z i o hz, h.healthy, h.same, other (.called o (hx i o rfl))⟩
  | finish i res h1 =>
    have := h.each i
    rw [h1] at this
    generalize hx : some (Prog.ret (S := S) res) = x at this
    generalize hz : z.calls i = y at this
    cases this with
    | none => cases hx
    | called o ho =>
      obtain ⟨k, f', e1, e2, -⟩ := stage_first hp hq ho
      rw [e2] at hx
      cases hx
    | did o res' pr ho hst =>
      injection hx with hx
      subst hx
      have hret : Returns o res' res := by
        cases hst with
        | ret => exact .inl rfl
        | missed n' ha hres => exact .inr ⟨ha, rfl, n', hres⟩
      exact .inl ⟨_, .finish z i o res' res hz hret, h.healthy, h.same, other .none⟩
  | run i s op f h1 =>
    have := h.each i
    rw [h1] at this
    generalize hx : some (Prog.call s op f) = x at this
    generalize hz : z.calls i = y at this
    have hh : Healthy a.world (n + 1) := h.healthy
    cases this with
    | none => cases hx
    | called o ho =>
      obtain ⟨k, f', hk, e2, hg, hst⟩ := stage_first hp hq ho
      rw [e2] at hx
      injection hx with hx
      injection hx with c1 c2 c3
      subst c1 c2 c3
      have hcall := callStep_meta (p k) op a.world (hh.1 _).1 (hg _)
      have hat : atOnce p z.world op
          = ((metaApi (a.world (p k)) op).1, World.update z.world (p k) (metaApi (a.world (p k)) op).2) := by
        unfold atOnce
        rw [hk]
        simp only
        rw [h.same k]
      refine .inl ⟨_, .run z i op hz, ?_, fun k' => ?_, ?_⟩
      · show Healthy (callOn (fun _ => metaCall) (p k) op some a.world).2 n
        rw [meta_callOn, hcall]
        exact healthy_call hh _ _ (hg _)
      · show (callOn (fun _ => metaCall) (p k) op some a.world).2 (p k') = (atOnce p z.world op).2 (p k')
        rw [meta_callOn, hcall, hat]
        simp only [World.update]
        split
        · rfl
        · exact h.same k'
      · refine other ?_
        rw [meta_callOn, hcall, hat]
        exact .did op _ _ ho (hst _)
    | did o res pr ho hst =>
      injection hx with hx
      subst hx
      obtain ⟨g1, g2, g3⟩ := stage_step hpq hst hh
      refine .inr ⟨rfl, g3, fun k => (g2 k).trans (h.same k), other' ?_⟩
      rw [hz]
      exact .did o res _ ho g1

theorem rep_run {H : Hashes} {r : ReplicaPool S} {p q : Bytes → S} (hp : ∀ k, r.primary.pick H k = .ok (p k))
    (hq : ∀ k, r.secondary.pick H k = .ok (q k)) (hpq : ∀ k k', p k ≠ q k') {w : World S} {l : List (Doings Op)} {a : Moment S}
    (hr : MomentRun (fun _ => metaCall) (replicaProg H r) ⟨w, fun _ => none⟩ l a)
    (hk : ∀ i o, Ev.start i o ∈ visible l → PlainOp o) : ∀ n, Healthy w (n + runs l) →
    ∃ l' z, IdealRun p ⟨w, fun _ => none⟩ l' z ∧ visible l' = visible l ∧ RepSim H r p q n a z := by
  induction hr with
  | nil => exact fun n hw => ⟨[], _, .nil, rfl, hw, fun _ => rfl, fun _ => .none⟩
  | @snoc l x a a' _ hs ih =>
    intro n hw
    rw [runs_append] at hw
    obtain ⟨l', z, h1, h2, h3⟩ := ih (fun i o hm => hk i o (by rw [visible_append]; exact List.mem_append_left _ hm)) (n + runs [x])
      (by rw [show n + runs [x] + runs l = n + (runs l + runs [x]) by omega]; exact hw)
    rcases rep_step hp hq hpq h3 hs (fun i o hx => hk i o (by rw [visible_append, hx]; simp [visible])) with ⟨z', g1, g2⟩ | ⟨g1, g2⟩
    · exact ⟨l' ++ [x], z', .snoc h1 g1, by rw [visible_append, visible_append, h2], g2⟩
    · exact ⟨l', z, h1, by rw [visible_append, g1, h2, List.append_nil], g2⟩

end Wired
end Verif
