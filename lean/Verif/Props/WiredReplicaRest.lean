import Verif.Props.WiredRest
import Verif.Props.WiredReplica
import Verif.Props.JointRouterFinite
/-!
C84, continued: the methods of replica pools return.
-/

namespace Verif
namespace Wired
open Kv Spec Mc Pool Cluster Props
open Joint (Short short_ret short_then short_pick short_more)

variable {S M : Type} [DecidableEq S]

/-! ### How many calls there are -/

/-- What the first `n` goroutines may still do, in all. -/
def budget (f : Nat → Nat) : Nat → Nat
  | 0 => 0
  | n + 1 => budget f n + f n

theorem budget_same {f g : Nat → Nat} : ∀ {n : Nat}, (∀ j, j < n → g j = f j) → budget g n = budget f n
  | 0, _ => rfl
  | n + 1, h => by rw [budget, budget, budget_same fun j hj => h j (by omega), h n (by omega)]

theorem budget_set {f : Nat → Nat} {i v : Nat} : ∀ {n : Nat}, i < n → budget (fun j => if j = i then v else f j) n + f i = budget f n + v
  | 0, h => absurd h (by omega)
  | n + 1, h => by
    rw [budget, budget]
    by_cases hn : i = n
    · subst hn
      rw [budget_same (f := f) fun j hj => if_neg (by omega), if_pos rfl]
      omega
    · rw [if_neg fun e => hn e.symm]
      have := budget_set (f := f) (v := v) (i := i) (n := n) (by omega)
      omega

theorem runs_bound {call : S → Op → Call Out} {method : M → Prog S} {b : Nat} {w : World S} {l : List (Doings M)}
    {a : Moment S} (hr : MomentRun call method ⟨w, fun _ => none⟩ l a) {n : Nat}
    (hb : ∀ i m, (i, m) ∈ Spec.Wired.starts (visible l) → Short b (method m)) (hn : ∀ i m, (i, m) ∈ Spec.Wired.starts (visible l) → i < n) :
    ∃ f : Nat → Nat, (∀ i p, a.prog i = some p → i < n ∧ Short (f i) p) ∧ runs l + budget f n ≤ b * (Spec.Wired.starts (visible l)).length := by
  induction hr with
  | nil =>
    have hz : ∀ n, budget (fun _ => 0) n = 0 := fun n => by
      induction n with
      | zero => rfl
      | succ n ih => rw [budget, ih]
    exact ⟨fun _ => 0, (fun _ _ h => by cases h), by rw [hz]; simp [runs]⟩
  | @snoc l x a a' _ hs ih =>
    rw [visible_append, starts_append] at hn hb ⊢
    rw [runs_append]
    obtain ⟨f, h1, h2⟩ := ih (fun i m hm => hb i m (List.mem_append_left _ hm)) fun i m hm => hn i m (List.mem_append_left _ hm)
    cases hs with
    | tick d => exact ⟨f, h1, by simpa [visible, Spec.Wired.starts, runs] using h2⟩
    | start i m h3 =>
      have hi : i < n := hn i m (List.mem_append_right _ (by simp [visible, Spec.Wired.starts]))
      refine ⟨fun j => if j = i then b else f j, fun j p hj => ?_, ?_⟩
      · have hj : (if j = i then some (method m) else a.prog j) = some p := hj
        by_cases hji : j = i
        · rw [if_pos hji] at hj
          cases hj
          exact ⟨hji ▸ hi, by simp only [if_pos hji]; exact hb i m (List.mem_append_right _ (by simp [visible, Spec.Wired.starts]))⟩
        · rw [if_neg hji] at hj
          simp only [if_neg hji]
          exact h1 j p hj
      · have := budget_set (f := f) (v := b) hi
        simp only [visible, Spec.Wired.starts, runs, List.length_append, List.length_cons, List.length_nil, Nat.mul_add, Nat.mul_one] at this h2 ⊢
        omega
    | finish i r h3 =>
      refine ⟨f, fun j p hj => ?_, by simpa [visible, Spec.Wired.starts, runs] using h2⟩
      have hj : (if j = i then none else a.prog j) = some p := hj
      by_cases hji : j = i
      · rw [if_pos hji] at hj; cases hj
      · rw [if_neg hji] at hj; exact h1 j p hj
    | run i s op k h3 =>
      obtain ⟨hi, hsh⟩ := h1 i _ h3
      cases hfi : f i with
      | zero => rw [hfi] at hsh; exact hsh.elim
      | succ c =>
        rw [hfi] at hsh
        refine ⟨fun j => if j = i then c else f j, fun j p hj => ?_, ?_⟩
        · have hj : (if j = i then some (k (callOn call s op some a.world).1) else a.prog j) = some p := hj
          by_cases hji : j = i
          · rw [if_pos hji] at hj
            cases hj
            exact ⟨hji ▸ hi, by simp only [if_pos hji]; exact hsh _⟩
          · rw [if_neg hji] at hj
            simp only [if_neg hji]
            exact h1 j p hj
        · have := budget_set (f := f) (v := c) hi
          simp only [visible, Spec.Wired.starts, runs, List.append_nil] at this h2 ⊢
          omega

theorem exists_above (l : List (Nat × M)) : ∃ n, ∀ i m, (i, m) ∈ l → i < n := by
  induction l with
  | nil => exact ⟨0, fun _ _ h => by cases h⟩
  | cons x l ih =>
    obtain ⟨n, hn⟩ := ih
    refine ⟨n + x.1 + 1, fun i m hm => ?_⟩
    cases hm with
    | head => simp only; omega
    | tail _ h => have := hn i m h; omega

omit [DecidableEq S] in
theorem short_replica (H : Hashes) (r : ReplicaPool S) (o : Op) : Short 3 (replicaProg H r o) := by
  have two : ∀ k a b, Short 3 (twoCalls H r k a b) := fun k a b => by
    unfold twoCalls
    refine short_pick fun p => fun x => short_then (n := 2) (fun _ => ?_) x
    refine short_pick fun q => fun x => short_then (n := 1) (fun _ => short_ret _ _) x
  have three : ∀ k a, Short 3 (threeCalls H r k a) := fun k a => by
    unfold threeCalls
    refine short_pick fun p => fun x => short_then (n := 2) (fun _ => ?_) x
    refine fun x => short_then (n := 1) (fun _ => ?_) x
    refine short_pick fun q => fun x => short_then (n := 0) (fun _ => short_ret _ _) x
  cases o with
  | get k => exact short_pick fun p => fun x => short_then (n := 2) (fun _ => short_ret _ _) x
  | set i => exact two _ _ _
  | add i => exact two _ _ _
  | replace i => exact two _ _ _
  | delete k => exact two _ _ _
  | increment k d e => exact three _ _
  | decrement k d e => exact three _ _
  | touch | flush | getMulti => exact short_ret _ _

/-- The situation: replica pools over the same two rings in any number of processes, whose goroutines call methods for
one key, without cas tokens. -/
structure ReplicaUse (U : Setup S Op) (H : Hashes) (name : S → Bytes) (ps qs : List S) (r : ReplicaPool S) (p q : Bytes → S)
    (w : World S) (tr : List (Ev Op)) (x : State S) : Prop where
  conns : U.call = fun _ => metaCall
  methods : U.method = replicaProg H r
  rings : TwoRings H name ps qs r
  primary : ∀ k, r.primary.pick H k = .ok (p k)
  secondary : ∀ k, r.secondary.pick H k = .ok (q k)
  run : Run U (State.init w) tr x
  up : Spec.Wired.Up x
  kinds : ∀ i o, Ev.start i o ∈ tr → PlainOp o
  healthy : Healthy w (3 * (Spec.Wired.starts tr).length)

theorem few_runs {H : Hashes} {r : ReplicaPool S} {w : World S} {l : List (Doings Op)} {a : Moment S}
    (hr : MomentRun (fun _ => metaCall) (replicaProg H r) ⟨w, fun _ => none⟩ l a) :
    runs l ≤ 3 * (Spec.Wired.starts (visible l)).length := by
  obtain ⟨n, hn⟩ := exists_above (Spec.Wired.starts (visible l))
  obtain ⟨f, -, h⟩ := runs_bound hr (fun _ m _ => short_replica H r m) hn
  omega

theorem mem_starts {l : List (Ev M)} {i : Nat} {m : M} : (i, m) ∈ Spec.Wired.starts l ↔ Ev.start i m ∈ l := by
  induction l with
  | nil => simp [Spec.Wired.starts]
  | cons x l ih => cases x <;> simp [Spec.Wired.starts, ih]

section
variable {U : Setup S Op} {H : Hashes} {name : S → Bytes} {ps qs : List S} {r : ReplicaPool S} {p q : Bytes → S}
    {w : World S} {tr : List (Ev Op)} {x : State S}

theorem ReplicaUse.clients (c : ReplicaUse U H name ps qs r p q w tr x) : Clients U := .inr c.conns

theorem ReplicaUse.proper (c : ReplicaUse U H name ps qs r p q w tr x) :
    ∀ l a, MomentRun U.call U.method ⟨w, fun _ => none⟩ l a → Spec.Wired.Upto tr (visible l) → NextProper U.call a := by
  intro l a hl hv
  have hv := hv.starts
  have hpq : ∀ k k', p k ≠ q k' := fun k k' => c.rings.ne (c.primary k) (c.secondary k')
  rw [c.conns, c.methods] at hl
  obtain ⟨l', z, -, -, h5⟩ := rep_run c.primary c.secondary hpq hl
    (fun i o hm => c.kinds i o (mem_starts.1 (hv.subset (mem_starts.2 hm)))) 0
    (healthy_mono c.healthy (by have := few_runs hl; have := hv.length_le; omega))
  rw [c.conns]
  exact h5.proper c.primary c.secondary
end

/-- **C84**: the same for the methods of a replica pool: whatever happens on the connections, and in whatever order,
every method is, for all callers in all processes, carried out at one moment between its call and its return, by the
primary of its key. -/
theorem C84_replica {U : Setup S Op} {H : Hashes} {name : S → Bytes} {ps qs : List S} {r : ReplicaPool S} {p q : Bytes → S}
    {w : World S} {tr : List (Ev Op)} {x : State S} (c : ReplicaUse U H name ps qs r p q w tr x) :
    ∃ l z, IdealRun p ⟨w, fun _ => none⟩ l z ∧ visible l = tr ∧ ∀ k, z.world (p k) = x.world (p k) := by
  have hpq : ∀ k k', p k ≠ q k' := fun k k' => c.rings.ne (c.primary k) (c.secondary k')
  obtain ⟨l, a, h1, h2, h3, h4⟩ := C84_refines c.clients c.run c.up fun l a hl hv hc => c.proper l a hl (.inl hv)
  rw [c.conns, c.methods] at h1
  obtain ⟨l', z, g1, g2, g3⟩ := rep_run c.primary c.secondary hpq h1 (fun i o hm => c.kinds i o (by rw [← h2]; exact hm)) 0
    (by rw [Nat.zero_add]; exact healthy_mono c.healthy (by have := few_runs h1; rw [h2] at this; omega))
  exact ⟨l', z, g1, g2.trans h2, fun k => by rw [← g3.same k, h4.world]⟩

/-- **C84**: they all return: without new calls only finitely many things happen, ... -/
theorem C84_replica_finite {U : Setup S Op} {H : Hashes} {name : S → Bytes} {ps qs : List S} {r : ReplicaPool S} {p q : Bytes → S}
    {w : World S} {tr : List (Ev Op)} {x : State S} (c : ReplicaUse U H name ps qs r p q w tr x) :
    ¬ ∃ f : Nat → State S, f 0 = x ∧ ∀ n, Spec.Wired.Works U (f n) (f (n + 1)) :=
  C84_finite c.clients c.run c.up c.proper

/-- **C84**: ... and something can happen until they have. -/
theorem C84_replica_no_deadlock {U : Setup S Op} {H : Hashes} {name : S → Bytes} {ps qs : List S} {r : ReplicaPool S} {p q : Bytes → S}
    {w : World S} {tr : List (Ev Op)} {x : State S} (c : ReplicaUse U H name ps qs r p q w tr x) (hb : ¬ Spec.Wired.AllBack x) :
    ∃ y, Spec.Wired.Works U x y :=
  C84_no_deadlock c.clients c.run c.up c.proper hb

theorem ReplicaUse.later {U : Setup S Op} {H : Hashes} {name : S → Bytes} {ps qs : List S} {r : ReplicaPool S} {p q : Bytes → S}
    {w : World S} {tr tr' : List (Ev Op)} {x y : State S} (c : ReplicaUse U H name ps qs r p q w tr x)
    (h1 : Run U x tr' y) (h2 : Spec.Wired.starts tr' = []) (h3 : Spec.Wired.Up y) : ReplicaUse U H name ps qs r p q w (tr ++ tr') y := by
  have e : Spec.Wired.starts (tr ++ tr') = Spec.Wired.starts tr := by rw [starts_append, h2, List.append_nil]
  exact ⟨c.conns, c.methods, c.rings, c.primary, c.secondary, c.run.trans h1, h3,
    fun i o hm => c.kinds i o (mem_starts.1 (by rw [← e]; exact mem_starts.2 hm)), by rw [e]; exact c.healthy⟩

/-- **C84**: so every run can be continued to one in which all have. -/
theorem C84_replica_run_on {U : Setup S Op} {H : Hashes} {name : S → Bytes} {ps qs : List S} {r : ReplicaPool S} {p q : Bytes → S}
    {w : World S} {tr : List (Ev Op)} {x : State S} (c : ReplicaUse U H name ps qs r p q w tr x) :
    ∃ tr' y, Run U x tr' y ∧ Spec.Wired.Up y ∧ Spec.Wired.starts tr' = [] ∧ Spec.Wired.AllBack y := by
  obtain ⟨tr', y, h1, h2, h3, h4⟩ := C84_run_on c.clients c.run c.up c.proper
  exact ⟨tr', y, h1, h3, h2, h4⟩

end Wired
end Verif
