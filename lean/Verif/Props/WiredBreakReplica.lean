import Verif.Spec.WiredReplica
import Verif.Props.WiredBreakRest
import Verif.Props.WiredReplicaRest
/-!
C87: replica pools over connections that may break.
-/

namespace Verif
namespace Wired
open Kv Spec Mc Pool Cluster Props
open Joint (Short)

variable {S M : Type} [DecidableEq S]

theorem mem_around {α : Type} {l1 l2 : List α} {x y : α} (h : x ∈ l1 ++ l2) : x ∈ l1 ++ y :: l2 :=
  (List.mem_append.1 h).elim (List.mem_append_left _) fun h => List.mem_append_right _ (.tail _ h)

/-! ### Connections that may be replaced -/

/-- One step, as in C85, and, with `again`: process `c` gets a new connection to server `s` for a broken one; a call that
has failed is carried out, in any order. -/
inductive AgainStep (again : Bool) (call : S → Op → Call Out) (method : M → Prog S) (proc : Nat → Nat) : Shaky S → Deed S M → Shaky S → Prop where
  | now (a : Shaky S) (d : Deed S M) (b : Shaky S) : ShakyStep call method proc a d b → AgainStep again call method proc a d b
  | mends (a : Shaky S) (c : Nat) (s : S) : again = true → a.down c s →
      AgainStep again call method proc a (.mends c s) { a with down := fun c' s' => a.down c' s' ∧ ¬ (c' = c ∧ s' = s) }
  | late (a : Shaky S) (c : Nat) (s : S) (l1 : List Op) (op : Op) (l2 : List Op) (w : World S) : again = true →
      a.pending c s = l1 ++ op :: l2 → Unheard call s op a.world w →
      AgainStep again call method proc a (.late c s)
        { a with world := w, pending := fun c' s' => if c' = c ∧ s' = s then l1 ++ l2 else a.pending c' s' }

/-- Any number of steps. -/
inductive AgainRun (again : Bool) (call : S → Op → Call Out) (method : M → Prog S) (proc : Nat → Nat) (a0 : Shaky S) : List (Deed S M) → Shaky S → Prop where
  | nil : AgainRun again call method proc a0 [] a0
  | snoc {l : List (Deed S M)} {x : Deed S M} {a a' : Shaky S} : AgainRun again call method proc a0 l a → AgainStep again call method proc a x a' →
      AgainRun again call method proc a0 (l ++ [x]) a'

theorem again_run {again : Bool} {call : S → Op → Call Out} {method : M → Prog S} {proc : Nat → Nat} {a0 : Shaky S} {l : List (Deed S M)} {a : Shaky S}
    (h : ShakyRun call method proc a0 l a) : AgainRun again call method proc a0 l a := by
  induction h with
  | nil => exact .nil
  | snoc _ hs ih => exact .snoc ih (.now _ _ _ hs)

theorem AgainStep.inv {again : Bool} {call : S → Op → Call Out} {method : M → Prog S} {proc : Nat → Nat} {a a' : Shaky S} {d : Deed S M}
    (h : AgainStep again call method proc a d a') : ShakyStep call method proc a d a'
      ∨ (∃ c s, again = true ∧ a.down c s ∧ d = .mends c s ∧ a' = { a with down := fun c' s' => a.down c' s' ∧ ¬ (c' = c ∧ s' = s) })
      ∨ ∃ c s l1 op l2 w, again = true ∧ a.pending c s = l1 ++ op :: l2 ∧ Unheard call s op a.world w ∧ d = .late c s
          ∧ a' = { a with world := w, pending := fun c' s' => if c' = c ∧ s' = s then l1 ++ l2 else a.pending c' s' } := by
  cases h with
  | now _ _ h => exact .inl h
  | mends c s h1 h2 => exact .inr (.inl ⟨c, s, h1, h2, rfl, rfl⟩)
  | late c s l1 op l2 w h1 h2 h3 => exact .inr (.inr ⟨c, s, l1, op, l2, w, h1, h2, h3, rfl, rfl⟩)

/-! ### How many calls there are -/

/-- What a goroutine may still do: `n` calls, the one whose result is on its way not counted. -/
def Left (n : Nat) : Prog S → Option (Res Out) → Prop
  | pr, none => Short n pr
  | .call _ _ k, some _ => ∀ x, Short n (k x)
  | .ret _, some _ => False

theorem shaky_bound {again : Bool} {call : S → Op → Call Out} {method : M → Prog S} {proc : Nat → Nat} {b : Nat} {w : World S}
    {l : List (Deed S M)} {a : Shaky S} (hr : AgainRun again call method proc (Shaky.start w) l a) {n : Nat}
    (hb : ∀ i m, (i, m) ∈ Spec.Wired.starts (seenOf l) → Short b (method m))
    (hn : ∀ i m, (i, m) ∈ Spec.Wired.starts (seenOf l) → i < n) :
    ∃ (f : Nat → Nat) (ws : List (Nat × S)), (∀ i, a.prog i = none → a.result i = none)
      ∧ (∀ i pr, a.prog i = some pr → i < n ∧ Left (f i) pr (a.result i))
      ∧ (∀ c s, ws.count (c, s) = (a.pending c s).length)
      ∧ carriedOut l + ws.length + budget f n ≤ b * (Spec.Wired.starts (seenOf l)).length := by
  induction hr with
  | nil =>
    have hz : ∀ n, budget (fun _ => 0) n = 0 := fun n => by
      induction n with
      | zero => rfl
      | succ n ih => rw [budget, ih]
    exact ⟨fun _ => 0, [], fun _ _ => rfl, (fun _ _ h => by cases h), fun _ _ => rfl, by rw [hz]; simp [carriedOut]⟩
  | @snoc l x a a' _ hs ih =>
    rw [seenOf_append, starts_append] at hn hb ⊢
    rw [carriedOut_append]
    obtain ⟨f, ws, h0, h1, h2, h3⟩ := ih (fun i m hm => hb i m (List.mem_append_left _ hm)) fun i m hm => hn i m (List.mem_append_left _ hm)
    have hlate : ∀ {c : Nat} {s : S} {op : Op} {l1 l2 : List Op} {w' : World S}, a.pending c s = l1 ++ op :: l2 →
        ∃ (f : Nat → Nat) (ws : List (Nat × S)), (∀ i, a.prog i = none → a.result i = none)
          ∧ (∀ i pr, a.prog i = some pr → i < n ∧ Left (f i) pr (a.result i))
          ∧ (∀ c' s', ws.count (c', s') = (if c' = c ∧ s' = s then l1 ++ l2 else a.pending c' s').length)
          ∧ carriedOut l + carriedOut [Deed.late (M := M) c s] + ws.length + budget f n
              ≤ b * (Spec.Wired.starts (seenOf l) ++ Spec.Wired.starts (seenOf [Deed.late (M := M) c s])).length := by
      intro c s op l1 l2 w' g1
      have hm : (c, s) ∈ ws := List.count_pos_iff.1 (by rw [h2, g1, List.length_append, List.length_cons]; omega)
      refine ⟨f, ws.erase (c, s), h0, h1, fun c' s' => ?_, ?_⟩
      · by_cases hc : c' = c ∧ s' = s
        · rw [if_pos hc, hc.1, hc.2, List.count_erase_self, h2, g1]; simp
        · rw [if_neg hc, List.count_erase_of_ne (by rintro e; injection e with e1 e2; exact hc ⟨e1, e2⟩), h2]
      · have := List.length_pos_of_mem hm
        rw [List.length_erase_of_mem hm]
        simp only [seenOf, Spec.Wired.starts, carriedOut, List.append_nil] at h3 ⊢
        omega
    rcases hs.inv with hs | ⟨c, s, -, -, rfl, rfl⟩ | ⟨c, s, l1, op, l2, w', -, g1, -, rfl, rfl⟩
    rotate_left
    · exact ⟨f, ws, h0, h1, h2, by simpa [seenOf, Spec.Wired.starts, carriedOut] using h3⟩
    · exact hlate (w' := w') g1
    cases hs with
    | tick d => exact ⟨f, ws, h0, h1, h2, by simpa [seenOf, Spec.Wired.starts, carriedOut] using h3⟩
    | breaks p s => exact ⟨f, ws, h0, h1, h2, by simpa [seenOf, Spec.Wired.starts, carriedOut] using h3⟩
    | start i m g1 =>
      have hi : i < n := hn i m (List.mem_append_right _ (by simp [seenOf, Spec.Wired.starts]))
      refine ⟨fun j => if j = i then b else f j, ws, fun j hj => ?_, fun j pr hj => ?_, h2, ?_⟩
      · have hj : (if j = i then some (method m) else a.prog j) = none := hj
        by_cases hji : j = i
        · rw [if_pos hji] at hj; cases hj
        · rw [if_neg hji] at hj; exact h0 j hj
      · have hj : (if j = i then some (method m) else a.prog j) = some pr := hj
        by_cases hji : j = i
        · rw [if_pos hji] at hj
          cases hj
          refine ⟨hji ▸ hi, ?_⟩
          simp only [if_pos hji]
          rw [hji, h0 i g1]
          exact hb i m (List.mem_append_right _ (by simp [seenOf, Spec.Wired.starts]))
        · rw [if_neg hji] at hj
          simp only [if_neg hji]
          exact h1 j pr hj
      · have := budget_set (f := f) (v := b) hi
        simp only [seenOf, Spec.Wired.starts, carriedOut, List.length_append, List.length_cons, List.length_nil, Nat.mul_add, Nat.mul_one] at this h3 ⊢
        omega
    | finish i r g1 =>
      have hl := (h1 i _ g1).2
      refine ⟨f, ws, fun j hj => ?_, fun j pr hj => ?_, h2, by simpa [seenOf, Spec.Wired.starts, carriedOut] using h3⟩
      · have hj : (if j = i then none else a.prog j) = none := hj
        by_cases hji : j = i
        · rw [hji]
          show a.result i = none
          cases hres : a.result i with
          | none => rfl
          | some y => rw [hres] at hl; exact hl.elim
        · rw [if_neg hji] at hj; exact h0 j hj
      · have hj : (if j = i then none else a.prog j) = some pr := hj
        by_cases hji : j = i
        · rw [if_pos hji] at hj; cases hj
        · rw [if_neg hji] at hj; exact h1 j pr hj
    | run i s op k g1 g2 =>
      obtain ⟨hi, hsh⟩ := h1 i _ g1
      rw [g2] at hsh
      cases hfi : f i with
      | zero => rw [hfi] at hsh; exact hsh.elim
      | succ c =>
        rw [hfi] at hsh
        refine ⟨fun j => if j = i then c else f j, ws, fun j hj => ?_, fun j pr hj => ?_, h2, ?_⟩
        · show (if j = i then _ else a.result j) = none
          by_cases hji : j = i
          · rw [hji] at hj
            have hj : a.prog i = none := hj
            rw [g1] at hj; cases hj
          · rw [if_neg hji]; exact h0 j hj
        · have hj : a.prog j = some pr := hj
          by_cases hji : j = i
          · rw [hji] at hj ⊢
            rw [g1] at hj
            cases hj
            refine ⟨hi, ?_⟩
            simp only [if_true]
            exact hsh
          · simp only [if_neg hji]
            exact h1 j pr hj
        · have := budget_set (f := f) (v := c) hi
          simp only [seenOf, Spec.Wired.starts, carriedOut, List.append_nil] at this h3 ⊢
          omega
    | learn i s op k r g1 g2 =>
      obtain ⟨hi, hsh⟩ := h1 i _ g1
      rw [g2] at hsh
      refine ⟨f, ws, fun j hj => ?_, fun j pr hj => ?_, h2, by simpa [seenOf, Spec.Wired.starts, carriedOut] using h3⟩
      · have hj : (if j = i then some (k r) else a.prog j) = none := hj
        show (if j = i then none else a.result j) = none
        by_cases hji : j = i
        · rw [if_pos hji]
        · rw [if_neg hji] at hj ⊢; exact h0 j hj
      · have hj : (if j = i then some (k r) else a.prog j) = some pr := hj
        show j < n ∧ Left (f j) pr (if j = i then none else a.result j)
        by_cases hji : j = i
        · rw [if_pos hji] at hj ⊢
          cases hj
          rw [hji]
          exact ⟨hi, hsh r⟩
        · rw [if_neg hji] at hj ⊢
          exact h1 j pr hj
    | lose i s op k r g1 g2 g3 =>
      obtain ⟨hi, hsh⟩ := h1 i _ g1
      rw [g2] at hsh
      refine ⟨f, ws, fun j hj => ?_, fun j pr hj => ?_, h2, by simpa [seenOf, Spec.Wired.starts, carriedOut] using h3⟩
      · have hj : (if j = i then some (k (.err .io)) else a.prog j) = none := hj
        show (if j = i then none else a.result j) = none
        by_cases hji : j = i
        · rw [if_pos hji]
        · rw [if_neg hji] at hj ⊢; exact h0 j hj
      · have hj : (if j = i then some (k (.err .io)) else a.prog j) = some pr := hj
        show j < n ∧ Left (f j) pr (if j = i then none else a.result j)
        by_cases hji : j = i
        · rw [if_pos hji] at hj ⊢
          cases hj
          rw [hji]
          exact ⟨hi, hsh _⟩
        · rw [if_neg hji] at hj ⊢
          exact h1 j pr hj
    | fail i s op k g1 g2 g3 =>
      obtain ⟨hi, hsh⟩ := h1 i _ g1
      rw [g2] at hsh
      cases hfi : f i with
      | zero => rw [hfi] at hsh; exact hsh.elim
      | succ c =>
        rw [hfi] at hsh
        refine ⟨fun j => if j = i then c else f j, (proc i, s) :: ws, fun j hj => ?_, fun j pr hj => ?_, fun c' s' => ?_, ?_⟩
        · have hj : (if j = i then some (k (.err .io)) else a.prog j) = none := hj
          by_cases hji : j = i
          · rw [if_pos hji] at hj; cases hj
          · rw [if_neg hji] at hj; exact h0 j hj
        · have hj : (if j = i then some (k (.err .io)) else a.prog j) = some pr := hj
          show j < n ∧ Left (if j = i then c else f j) pr (a.result j)
          by_cases hji : j = i
          · rw [if_pos hji] at hj ⊢
            cases hj
            rw [hji, g2]
            exact ⟨hi, hsh _⟩
          · rw [if_neg hji] at hj ⊢
            exact h1 j pr hj
        · show List.count (c', s') ((proc i, s) :: ws) = (if c' = proc i ∧ s' = s then a.pending c' s' ++ [op] else a.pending c' s').length
          by_cases hc : c' = proc i ∧ s' = s
          · rw [if_pos hc, hc.1, hc.2, List.count_cons_self, h2, List.length_append]; rfl
          · rw [if_neg hc, List.count_cons_of_ne (by rintro e; injection e with e1 e2; exact hc ⟨e1.symm, e2.symm⟩), h2]
        · have := budget_set (f := f) (v := c) hi
          simp only [seenOf, Spec.Wired.starts, carriedOut, List.append_nil, List.length_cons] at this h3 ⊢
          omega
    | late c s op ops w' g1 g2 => exact hlate (l1 := []) (w' := w') g1

theorem few_carried {again : Bool} {H : Hashes} {r : ReplicaPool S} {proc : Nat → Nat} {w : World S} {l : List (Deed S Op)} {a : Shaky S}
    (hr : AgainRun again (fun _ => metaCall) (replicaProg H r) proc (Shaky.start w) l a) :
    carriedOut l ≤ 3 * (Spec.Wired.starts (seenOf l)).length := by
  obtain ⟨n, hn⟩ := exists_above (Spec.Wired.starts (seenOf l))
  obtain ⟨f, ws, -, -, -, h⟩ := shaky_bound hr (fun _ m _ => short_replica H r m) hn
  omega

/-! ### One method -/

section
variable {H : Hashes} {r : ReplicaPool S} {p q : Bytes → S} {proc : Nat → Nat}

omit [DecidableEq S] in
theorem first_err (hp : ∀ k, r.primary.pick H k = .ok (p k)) {o : Op} {s : S} {op : Op} {f : Res Out → Prog S}
    (h : replicaProg H r o = .call s op f) (e : Err) : f (.err e) = .ret (.err e) := by
  cases o <;> simp only [replicaProg, twoCalls, threeCalls, hp, onPick] at h <;> first | (cases h; rfl) | cases h

omit [DecidableEq S] in
theorem stage_err {o : Op} {res : Res Out} {s : S} {op : Op} {f : Res Out → Prog S} (h : Stage H r p q o res (.call s op f)) (e : Err) :
    f (.err e) = .ret (.err e) := by
  cases h <;> rfl

/-- The method does not end with another error than `res`. -/
def Sure (res : Res Out) (pr : Prog S) : Prop := ∀ e, pr = .ret (.err e) → res = .err e

omit [DecidableEq S] in
theorem first_sure (hp : ∀ k, r.primary.pick H k = .ok (p k)) (hq : ∀ k, r.secondary.pick H k = .ok (q k)) {o : Op} {s : S} {op : Op} {f : Res Out → Prog S}
    (h : replicaProg H r o = .call s op f) (x : Res Out) : Sure x (f x) := by
  intro e hx
  cases x with
  | err e' =>
    rw [first_err hp h] at hx
    injection hx
  | panic => cases o <;> simp only [replicaProg, twoCalls, threeCalls, hp, hq, onPick] at h <;> cases h <;> cases hx
  | ok y =>
    cases o <;> simp only [replicaProg, twoCalls, threeCalls, hp, hq, onPick] at h <;> cases h <;> cases y <;> cases hx

theorem step_sure {o : Op} {res : Res Out} {s : S} {op : Op} {f : Res Out → Prog S} (h : Stage H r p q o res (.call s op f))
    {w : World S} {n : Nat} (hw : Healthy w (n + 1)) :
    Sure res (f (callStep s op w).1)
      ∨ ∃ k m, o.key? = some k ∧ IsArith o ∧ res = .ok (.num m) ∧ s = p k ∧ (w (p k)).find k = none ∧ f (callStep s op w).1 = .ret (.err .itemNotFound) := by
  cases h with
  | copy k o2 hk hc hf hres =>
    rw [callStep_meta (q k) op w (hw.1 _).1 (copies_good hc (w (q k))), copies_done hc]
    exact .inl fun e h => by cases h
  | read k hk n' ho hres hkey =>
    have hg : GoodMetaOp (w (p k)) (.get k) := hk
    rw [callStep_meta (p k) _ w (hw.1 _).1 hg]
    cases hf : (w (p k)).find k with
    | none =>
      simp only [metaApi, hf]
      exact .inr ⟨k, n', hkey, ho, hres, rfl, hf, rfl⟩
    | some e =>
      simp only [metaApi, hf]
      exact .inl fun e h => by cases h
  | write k n' ho hres item hi =>
    have hc : Copies (.set (copyOf k item)) := .inl ⟨_, rfl, hi, rfl⟩
    rw [callStep_meta (q k) _ w (hw.1 _).1 (copies_good hc (w (q k))), copies_done hc]
    exact .inl fun e h => by cases h

/-- How far a method is, in both systems. -/
inductive Tear (H : Hashes) (r : ReplicaPool S) (p q : Bytes → S) :
    Option (Prog S) → Option (Res Out) → Option (Op × Option (Res Out)) → Prop where
  | none : Tear H r p q none none none
  | called (o : Op) : PlainOp o → Tear H r p q (some (replicaProg H r o)) none (some (o, none))
  | ran (o : Op) (st : Store) : PlainOp o → Tear H r p q (some (replicaProg H r o)) (some (metaApi st o).1) (some (o, some (metaApi st o).1))
  | did (o : Op) (res : Res Out) (pr : Prog S) : PlainOp o → Stage H r p q o res pr → Sure res pr → Tear H r p q (some pr) none (some (o, some res))
  | known (o : Op) (res : Res Out) (s : S) (op : Op) (f : Res Out → Prog S) (x : Res Out) : PlainOp o → Stage H r p q o res (.call s op f) →
      Stage H r p q o res (f x) → Sure res (f x) → Tear H r p q (some (.call s op f)) (some x) (some (o, some res))
  | missing (o : Op) (res : Res Out) (k : Bytes) (op : Op) (f : Res Out → Prog S) (x : Res Out) : PlainOp o → Stage H r p q o res (.call (p k) op f) →
      o.key? = some k → f x = .ret (.err .itemNotFound) →
      Tear H r p q (some (.call (p k) op f)) (some x) (some (o, some (.err .itemNotFound)))

theorem Tear.none_iff {u : Option (Prog S)} {v : Option (Res Out)} {c : Option (Op × Option (Res Out))} (h : Tear H r p q u v c) :
    c = Option.none ↔ u = Option.none := by
  cases h <;> simp

/-- The two systems. -/
structure TornRel (H : Hashes) (r : ReplicaPool S) (p q : Bytes → S) (n : Nat) (a : Shaky S) (z : Torn S) : Prop where
  healthy : Healthy a.world n
  same : ∀ k, a.world (p k) = z.world (p k)
  broken : z.broken = a.down
  each : ∀ i, Tear H r p q (a.prog i) (a.result i) (z.calls i)
  adrift : ∀ c k, z.adrift c (p k) = (a.pending c (p k)).filter changing
  good : ∀ c s, ∀ op ∈ a.pending c s, (∀ st, GoodMetaOp st op) ∧ (∃ k, op.key? = some k ∧ (s = p k ∨ s = q k))

theorem stage_where {o : Op} {res : Res Out} {s : S} {op : Op} {f : Res Out → Prog S} (h : Stage H r p q o res (.call s op f)) :
    ∃ k, o.key? = some k ∧ op.key? = some k ∧ changing o = true ∧ (∃ x, res = .ok x) ∧ (s = p k ∧ changing op = false ∨ s = q k) := by
  cases h with
  | copy k o2 hk hc hf hres =>
    refine ⟨k, hk, ?_, ?_, ⟨_, hres⟩, .inr rfl⟩
    · rcases hf with ⟨i, -, h, rfl⟩ | ⟨-, rfl⟩
      · exact congrArg some h
      · rfl
    · rcases hf with ⟨i, h, -⟩ | ⟨rfl, -⟩
      · cases o <;> first | rfl | cases h
      · rfl
  | read k hk n ho hres hkey => exact ⟨k, hkey, rfl, by cases o <;> first | rfl | exact ho.elim, ⟨_, hres⟩, .inl ⟨rfl, rfl⟩⟩
  | write k n ho hres item hi hkey => exact ⟨k, hkey, rfl, by cases o <;> first | rfl | exact ho.elim, ⟨_, hres⟩, .inr rfl⟩

theorem unheard_meta {s : S} {op : Op} {w w' : World S} (h : Unheard (fun _ => metaCall) s op w w') (hs : GoodMetaStore (w s))
    (ho : GoodMetaOp (w s) op) : w' = World.update w s (metaApi (w s) op).2 := by
  obtain ⟨wire, reply, st, g1, g2, rfl⟩ := h
  have hx := C52_meta_call op (w s) hs ho
  have hst : (metaApi (w s) op).2 = st := by
    unfold exchange at hx
    dsimp only at g1
    rw [g1] at hx
    simp only [g2] at hx
    split at hx
    · split at hx
      · cases hx
      · injection hx with hx; rw [← hx]
    · cases hx
  rw [hst]

theorem get_same {op : Op} (h : changing op = false) (s : Store) : (metaApi s op).2 = s := by
  cases op with
  | get k => simp only [metaApi]; split <;> rfl
  | _ => cases h

theorem atOnce_eq {k : Bytes} {o : Op} (h : o.key? = some k) (w : World S) :
    atOnce p w o = ((metaApi (w (p k)) o).1, World.update w (p k) (metaApi (w (p k)) o).2) := by
  unfold atOnce; rw [h]

theorem torn_step {again : Bool} (hp : ∀ k, r.primary.pick H k = .ok (p k)) (hq : ∀ k, r.secondary.pick H k = .ok (q k)) (hpq : ∀ k k', p k ≠ q k')
    {n : Nat} {a a' : Shaky S} {z : Torn S} {d : Deed S Op} (h : TornRel H r p q (n + carriedOut [d]) a z)
    (hs : AgainStep again (fun _ => metaCall) (replicaProg H r) proc a d a') (hd : ∀ i o, d = .ev (.start i o) → PlainOp o) :
    (∃ d' z', TornStep again p q proc z d' z' ∧ seenOf [d'] = seenOf [d] ∧ (carriedOut [d'] ≤ carriedOut [d] ∧ ∀ c s, d' = .mends c s → d = .mends c s) ∧ TornRel H r p q n a' z')
      ∨ seenOf [d] = [] ∧ TornRel H r p q n a' z := by
  have move : ∀ {i : Nat} {u : Option (Prog S)} {v : Option (Res Out)} {x : Option (Op × Option (Res Out))}, Tear H r p q u v x →
      ∀ j, Tear H r p q (if j = i then u else a.prog j) (if j = i then v else a.result j) (if j = i then x else z.calls j) := by
    intro i u v x hx j
    by_cases hj : j = i
    · rw [if_pos hj, if_pos hj, if_pos hj]; exact hx
    · rw [if_neg hj, if_neg hj, if_neg hj]; exact h.each j
  have same : ∀ {α : Type} {f : Nat → α} {i : Nat} {v : α}, f i = v → (fun j => if j = i then v else f j) = f := by
    intro α f i v hv
    funext j
    by_cases hj : j = i
    · rw [if_pos hj, hj, hv]
    · rw [if_neg hj]
  have hlate : ∀ {c : Nat} {s : S} {l1 : List Op} {op : Op} {l2 : List Op} {w' : World S}, a.pending c s = l1 ++ op :: l2 →
      (again = false → l1 = []) → Unheard (fun _ => metaCall) s op a.world w' → TornRel H r p q (n + carriedOut [Deed.late (M := Op) c s]) a z →
      (∃ d' z', TornStep again p q proc z d' z' ∧ seenOf [d'] = seenOf [Deed.late (M := Op) c s] ∧ (carriedOut [d'] ≤ carriedOut [Deed.late (M := Op) c s] ∧ ∀ c' s', d' = .mends c' s' → Deed.late (M := Op) c s = .mends c' s')
          ∧ TornRel H r p q n { a with world := w', pending := fun c' s' => if c' = c ∧ s' = s then l1 ++ l2 else a.pending c' s' } z')
        ∨ seenOf [Deed.late (M := Op) c s] = [] ∧ TornRel H r p q n { a with world := w', pending := fun c' s' => if c' = c ∧ s' = s then l1 ++ l2 else a.pending c' s' } z := by
      intro c s l1 op l2 w' h1 h1' h2 h
      have hh : Healthy a.world (n + 1) := h.healthy
      obtain ⟨hg, k, hk, hwhere⟩ := h.good c s op (by rw [h1]; exact List.mem_append_right _ (.head _))
      have hw := unheard_meta h2 (hh.1 s).1 (hg _)
      subst hw
      have good' : ∀ c' s', ∀ o ∈ (if c' = c ∧ s' = s then l1 ++ l2 else a.pending c' s'), (∀ st, GoodMetaOp st o) ∧ (∃ k, o.key? = some k ∧ (s' = p k ∨ s' = q k)) := by
        intro c' s' o ho
        by_cases hc : c' = c ∧ s' = s
        · rw [if_pos hc] at ho
          rw [hc.2]
          exact h.good c s o (by rw [h1]; exact mem_around ho)
        · rw [if_neg hc] at ho; exact h.good c' s' o ho
      rcases hwhere with rfl | rfl
      · cases hch : changing op with
        | true =>
          have ha : z.adrift c (p k) = l1.filter changing ++ op :: l2.filter changing := by rw [h.adrift, h1, List.filter_append, List.filter_cons_of_pos hch]
          have hat := atOnce_eq (p := p) hk z.world
          rw [← h.same k] at hat
          refine .inl ⟨_, _, .late z c (p k) op _ _ ha (fun e => by rw [h1' e]; rfl), rfl, ⟨Nat.le_refl _, fun _ _ e => e⟩, healthy_call hh _ _ (hg _), fun k' => ?_, h.broken, h.each, fun c' k' => ?_, good'⟩
          · show World.update a.world (p k) (metaApi (a.world (p k)) op).2 (p k') = (atOnce p z.world op).2 (p k')
            rw [hat]
            simp only [World.update]
            split
            · rfl
            · exact h.same k'
          · show (if c' = c ∧ p k' = p k then l1.filter changing ++ l2.filter changing else z.adrift c' (p k')) = (if c' = c ∧ p k' = p k then l1 ++ l2 else a.pending c' (p k')).filter changing
            by_cases hc : c' = c ∧ p k' = p k
            · rw [if_pos hc, if_pos hc, List.filter_append]
            · rw [if_neg hc, if_neg hc, h.adrift]
        | false =>
          refine .inr ⟨rfl, healthy_call hh _ _ (hg _), fun k' => ?_, h.broken, h.each, fun c' k' => ?_, good'⟩
          · show World.update a.world (p k) (metaApi (a.world (p k)) op).2 (p k') = z.world (p k')
            rw [get_same hch]
            simp only [World.update]
            split
            · rename_i e; rw [← e]; exact h.same k'
            · exact h.same k'
          · show z.adrift c' (p k') = (if c' = c ∧ p k' = p k then l1 ++ l2 else a.pending c' (p k')).filter changing
            by_cases hc : c' = c ∧ p k' = p k
            · rw [if_pos hc, hc.1, hc.2, h.adrift, h1, List.filter_append, List.filter_append, List.filter_cons_of_neg (by rw [hch]; simp)]
            · rw [if_neg hc, h.adrift]
      · refine .inr ⟨rfl, healthy_call hh _ _ (hg _), fun k' => ?_, h.broken, h.each, fun c' k' => ?_, good'⟩
        · show World.update a.world (q k) (metaApi (a.world (q k)) op).2 (p k') = z.world (p k')
          simp only [World.update, if_neg (hpq k' k)]
          exact h.same k'
        · show z.adrift c' (p k') = (if c' = c ∧ p k' = q k then l1 ++ l2 else a.pending c' (p k')).filter changing
          rw [if_neg fun e => hpq _ _ e.2, h.adrift]
  rcases hs.inv with hs | ⟨c, s, hag, hdown, rfl, rfl⟩ | ⟨c, s, l1, op, l2, w', hag, h1, h2, rfl, rfl⟩
  rotate_left
  · refine .inl ⟨_, _, .mends z c s hag (by rw [h.broken]; exact hdown), rfl, ⟨Nat.le_refl _, fun _ _ e => e⟩, h.healthy, h.same, ?_, h.each, h.adrift, h.good⟩
    show (fun q' s' => z.broken q' s' ∧ _) = _
    rw [h.broken]
  · exact hlate h1 (fun e => by rw [hag] at e; cases e) h2 h
  cases hs with
  | tick d =>
    exact .inl ⟨_, _, .tick z d, rfl, ⟨Nat.le_refl _, fun _ _ e => e⟩, healthy_tick h.healthy d, fun k => by
      show (a.world (p k)).tick d = (z.world (p k)).tick d
      rw [h.same], h.broken, h.each, h.adrift, h.good⟩
  | start i o h1 =>
    have hi := h.each i
    rw [h1] at hi
    have hnone : a.result i = none ∧ z.calls i = none := by
      generalize a.result i = u at hi
      generalize z.calls i = v at hi
      cases hi
      exact ⟨rfl, rfl⟩
    refine .inl ⟨_, _, .start z i o hnone.2, rfl, ⟨Nat.le_refl _, fun _ _ e => e⟩, h.healthy, h.same, h.broken, fun j => ?_, h.adrift, h.good⟩
    have := move (i := i) (.called o (hd i o rfl)) j
    rwa [congrFun (same hnone.1) j] at this
  | finish i x h1 =>
    have hi := h.each i
    rw [h1] at hi
    have key : a.result i = none ∧ ∃ o, z.calls i = some (o, some x) := by
      generalize hx : some (Prog.ret (S := S) x) = u at hi
      generalize a.result i = u at hi
      generalize z.calls i = v at hi
      cases hi with
      | none => cases hx
      | called o ho =>
        obtain ⟨k, f', e1, e2, -⟩ := stage_first hp hq ho
        rw [e2] at hx; cases hx
      | ran o st ho =>
        obtain ⟨k, f', e1, e2, -⟩ := stage_first hp hq ho
        rw [e2] at hx; cases hx
      | did o res pr ho hst hsure =>
        injection hx with hx
        subst hx
        refine ⟨rfl, o, ?_⟩
        cases hst with
        | ret => rfl
        | missed n' ha hres => rw [hsure _ rfl]
      | known => cases hx
      | missing => cases hx
    obtain ⟨e1, o, e2⟩ := key
    refine .inl ⟨_, _, .finish z i o x e2, rfl, ⟨Nat.le_refl _, fun _ _ e => e⟩, h.healthy, h.same, h.broken, fun j => ?_, h.adrift, h.good⟩
    have := move (i := i) (.none) j
    rwa [congrFun (same e1) j] at this
  | breaks c s =>
    refine .inl ⟨_, _, .breaks z c s, rfl, ⟨Nat.le_refl _, fun _ _ e => e⟩, h.healthy, h.same, ?_, h.each, h.adrift, h.good⟩
    show (fun q' s' => z.broken q' s' ∨ _) = _
    rw [h.broken]
  | run i s op f h1 h2 =>
    have hi := h.each i
    rw [h1, h2] at hi
    have hh : Healthy a.world (n + 1) := h.healthy
    generalize hx : some (Prog.call s op f) = u at hi
    generalize hz : z.calls i = v at hi
    generalize hv : (none : Option (Res Out)) = y at hi
    cases hi with
    | none => cases hx
    | ran => cases hv
    | known => cases hv
    | missing => cases hv
    | called o ho =>
      obtain ⟨k, f', hk, e2, hg, hst⟩ := stage_first hp hq ho
      rw [e2] at hx
      injection hx with hx
      injection hx with c1 c2 c3
      subst c1 c2 c3
      have hcall := callStep_meta (p k) op a.world (hh.1 _).1 (hg _)
      have hat := atOnce_eq (p := p) hk z.world
      rw [← h.same k] at hat
      refine .inl ⟨_, _, .run z i op hz, rfl, ⟨Nat.le_refl _, fun _ _ e => e⟩, ?_, fun k' => ?_, h.broken, fun j => ?_, h.adrift, h.good⟩
      · show Healthy (callOn (fun _ => metaCall) (p k) op some a.world).2 n
        rw [meta_callOn, hcall]
        exact healthy_call hh _ _ (hg _)
      · show (callOn (fun _ => metaCall) (p k) op some a.world).2 (p k') = (atOnce p z.world op).2 (p k')
        rw [meta_callOn, hcall, hat]
        simp only [World.update]
        split
        · rfl
        · exact h.same k'
      · show Tear H r p q (a.prog j) (if j = i then some (callOn (fun _ => metaCall) (p k) op some a.world).1 else a.result j)
          (if j = i then some (op, some (atOnce p z.world op).1) else z.calls j)
        rw [meta_callOn, hcall, hat]
        have := move (i := i) (.ran op (a.world (p k)) ho) j
        rw [e2] at this
        rwa [congrFun (same h1) j] at this
    | did o res pr ho hst =>
      injection hx with hx
      subst hx
      obtain ⟨g1, g2, g3⟩ := stage_step hpq hst hh
      rcases step_sure hst hh with g4 | ⟨k, m, g4, g5, rfl, rfl, g6, g7⟩
      · refine .inr ⟨rfl, g3, fun k => (g2 k).trans (h.same k), h.broken, fun j => ?_, h.adrift, h.good⟩
        have := move (i := i) (.known o res s op f _ ho hst g1 g4) j
        rw [congrFun (same h1) j, congrFun (same hz) j] at this
        exact this
      · refine .inl ⟨.lose i, _, .misses z i o k m hz g4 g5 (by rw [← h.same]; exact g6), rfl, ⟨Nat.zero_le _, fun _ _ e => by cases e⟩, g3,
          fun k => (g2 k).trans (h.same k), h.broken, fun j => ?_, h.adrift, h.good⟩
        have := move (i := i) (.missing o _ k op f _ ho hst g4 g7) j
        rw [congrFun (same h1) j] at this
        exact this
  | learn i s op f x h1 h2 =>
    have hi := h.each i
    rw [h1, h2] at hi
    have key : Tear H r p q (some (f x)) none (z.calls i) := by
      generalize hx : some (Prog.call s op f) = u at hi
      generalize hv : some x = y at hi
      generalize z.calls i = v at hi
      cases hi with
      | none => cases hx
      | called => cases hv
      | did => cases hv
      | ran o st ho =>
        obtain ⟨k, f', hk, e2, hg, hst⟩ := stage_first hp hq ho
        rw [e2] at hx
        injection hx with hx
        injection hx with c1 c2 c3
        injection hv with hv
        subst c1 c2 c3 hv
        exact .did op _ _ ho (hst _) (first_sure hp hq e2 _)
      | known o res s' op' f' x' ho hst hst' hsure =>
        injection hx with hx
        injection hx with c1 c2 c3
        injection hv with hv
        subst c1 c2 c3 hv
        exact .did o res _ ho hst' hsure
      | missing o res k op' f' x' ho hst hk hf =>
        injection hx with hx
        injection hx with c1 c2 c3
        injection hv with hv
        subst c1 c2 c3 hv
        rw [hf]
        exact .did o _ _ ho .ret fun e h => by injection h
    refine .inr ⟨rfl, h.healthy, h.same, h.broken, fun j => ?_, h.adrift, h.good⟩
    have := move (i := i) key j
    rwa [congrFun (same rfl) j] at this
  | lose i s op f x h1 h2 h3 =>
    have hi := h.each i
    rw [h1, h2] at hi
    have key : ∃ o res k, z.calls i = some (o, some res) ∧ PlainOp o ∧ o.key? = some k ∧ f (.err .io) = .ret (.err .io)
        ∧ (s = p k ∨ s = q k ∧ changing o = true ∧ ∃ x, res = .ok x) := by
      generalize hx : some (Prog.call s op f) = u at hi
      generalize hv : some x = y at hi
      generalize z.calls i = v at hi
      cases hi with
      | none => cases hx
      | called => cases hv
      | did => cases hv
      | ran o st ho =>
        obtain ⟨k, f', hk, e2, hg, hst⟩ := stage_first hp hq ho
        injection hx with hx
        have hf := first_err (e := .io) hp hx.symm
        rw [e2] at hx
        injection hx with c1 c2 c3
        exact ⟨o, _, k, rfl, ho, hk, hf, .inl c1⟩
      | known o res s' op' f' x' ho hst hst' =>
        injection hx with hx
        injection hx with c1 c2 c3
        subst c1 c2 c3
        obtain ⟨k, k1, k2, k3, k4, k5⟩ := stage_where hst
        exact ⟨o, res, k, rfl, ho, k1, stage_err hst _, k5.elim (fun h => .inl h.1) fun h => .inr ⟨h, k3, k4⟩⟩
      | missing o res k op' f' x' ho hst hk hf =>
        injection hx with hx
        injection hx with c1 c2 c3
        subst c1 c2 c3
        exact ⟨o, _, k, rfl, ho, hk, stage_err hst _, .inl rfl⟩
    obtain ⟨o, res, k, e1, ho, e2, e3, e4⟩ := key
    refine .inl ⟨_, _, .lose z i o k res e1 e2 ?_, rfl, ⟨Nat.le_refl _, fun _ _ e => e⟩, h.healthy, h.same, h.broken, fun j => ?_, h.adrift, h.good⟩
    · rw [h.broken]
      rcases e4 with rfl | ⟨rfl, e4⟩
      · exact .inl h3
      · exact .inr ⟨h3, e4⟩
    · have := move (i := i) (.did o (.err .io) _ ho .ret fun e h => by injection h) j
      show Tear H r p q (if j = i then some (f (.err .io)) else a.prog j) _ _
      rw [e3]
      exact this
  | fail i s op f h1 h2 h3 =>
    have hi := h.each i
    rw [h1, h2] at hi
    generalize hx : some (Prog.call s op f) = u at hi
    generalize hz : z.calls i = v at hi
    generalize hv : (none : Option (Res Out)) = y at hi
    cases hi with
    | none => cases hx
    | ran => cases hv
    | known => cases hv
    | missing => cases hv
    | called o ho =>
      obtain ⟨k, f', hk, e2, hg, hst⟩ := stage_first hp hq ho
      injection hx with hx
      have hf := first_err (e := .io) hp hx.symm
      rw [e2] at hx
      injection hx with c1 c2 c3
      subst c1 c2 c3
      refine .inl ⟨_, _, .fail z i op k hz hk (by rw [h.broken]; exact h3), rfl, ⟨Nat.le_refl _, fun _ _ e => e⟩, h.healthy, h.same, h.broken, fun j => ?_, fun c k' => ?_, fun c s o ho' => ?_⟩
      · have := move (i := i) (.did op (.err .io) _ ho .ret fun e h => by injection h) j
        rw [congrFun (same h2) j] at this
        show Tear H r p q (if j = i then some (f (.err .io)) else a.prog j) (a.result j) _
        rw [hf]
        exact this
      · show (if c = proc i ∧ p k' = p k then z.adrift c (p k') ++ [op].filter changing else z.adrift c (p k'))
          = (if c = proc i ∧ p k' = p k then a.pending c (p k') ++ [op] else a.pending c (p k')).filter changing
        by_cases hc : c = proc i ∧ p k' = p k
        · rw [if_pos hc, if_pos hc, List.filter_append, h.adrift]
        · rw [if_neg hc, if_neg hc, h.adrift]
      · have ho' : o ∈ (if c = proc i ∧ s = p k then a.pending c s ++ [op] else a.pending c s) := ho'
        by_cases hc : c = proc i ∧ s = p k
        · rw [if_pos hc] at ho'
          rcases List.mem_append.1 ho' with ho' | ho'
          · exact h.good c s o ho'
          · rw [List.mem_singleton.1 ho']
            exact ⟨hg, k, hk, .inl hc.2⟩
        · rw [if_neg hc] at ho'
          exact h.good c s o ho'
    | did o res pr ho hst =>
      injection hx with hx
      subst hx
      obtain ⟨k, k1, k2, k3, k4, k5⟩ := stage_where hst
      refine .inl ⟨.lose i, _, .lose z i o k res hz k1 ?_, rfl, ⟨Nat.le_refl _, fun _ _ e => by cases e⟩, h.healthy, h.same, h.broken, fun j => ?_, fun c k' => ?_, fun c s' o' ho' => ?_⟩
      · rw [h.broken]
        rcases k5 with ⟨rfl, -⟩ | rfl
        · exact .inl h3
        · exact .inr ⟨h3, k3, k4⟩
      · have := move (i := i) (.did o (.err .io) _ ho .ret fun e h => by injection h) j
        rw [congrFun (same h2) j] at this
        show Tear H r p q (if j = i then some (f (.err .io)) else a.prog j) (a.result j) _
        rw [stage_err hst]
        exact this
      · show z.adrift c (p k') = (if c = proc i ∧ p k' = s then a.pending c (p k') ++ [op] else a.pending c (p k')).filter changing
        by_cases hc : c = proc i ∧ p k' = s
        · rw [if_pos hc, List.filter_append, h.adrift]
          rcases k5 with ⟨-, k5⟩ | k5
          · rw [List.filter_cons_of_neg (by rw [k5]; simp)]; simp
          · exact absurd (hc.2.trans k5) (hpq _ _)
        · rw [if_neg hc, h.adrift]
      · have ho' : o' ∈ (if c = proc i ∧ s' = s then a.pending c s' ++ [op] else a.pending c s') := ho'
        by_cases hc : c = proc i ∧ s' = s
        · rw [if_pos hc] at ho'
          rcases List.mem_append.1 ho' with ho' | ho'
          · exact h.good c s' o' ho'
          · rw [List.mem_singleton.1 ho']
            exact ⟨fun st => (stage_good hst st).1, k, k2, by rw [hc.2]; exact k5.imp And.left id⟩
        · rw [if_neg hc] at ho'
          exact h.good c s' o' ho'
  | late c s op ops w' h1 h2 => exact hlate (l1 := []) h1 (fun _ => rfl) h2 h

theorem torn_run {again : Bool} (hp : ∀ k, r.primary.pick H k = .ok (p k)) (hq : ∀ k, r.secondary.pick H k = .ok (q k)) (hpq : ∀ k k', p k ≠ q k')
    {a0 : Shaky S} {z0 : Torn S} {l : List (Deed S Op)} {a : Shaky S}
    (hl : AgainRun again (fun _ => metaCall) (replicaProg H r) proc a0 l a)
    (hk : ∀ i o, (i, o) ∈ Spec.Wired.starts (seenOf l) → PlainOp o) : ∀ n, TornRel H r p q (n + carriedOut l) a0 z0 →
    ∃ m z, TornRun again p q proc z0 m z ∧ seenOf m = seenOf l ∧ carriedOut m ≤ carriedOut l ∧ (∀ c s, Deed.mends c s ∈ m → Deed.mends c s ∈ l) ∧ TornRel H r p q n a z := by
  induction hl with
  | nil => exact fun n hw => ⟨[], _, .nil, rfl, Nat.le_refl _, fun _ _ h => h, hw⟩
  | @snoc l d a a' _ hs ih =>
    intro n hw
    rw [carriedOut_append] at hw
    obtain ⟨m, z, h1, h2, h3, h5, h4⟩ := ih (fun i o hm => hk i o (by rw [seenOf_append, starts_append]; exact List.mem_append_left _ hm)) (n + carriedOut [d])
      (by rw [show n + carriedOut [d] + carriedOut l = n + (carriedOut l + carriedOut [d]) by omega]; exact hw)
    rcases torn_step hp hq hpq h4 hs (fun i o hx => hk i o (by rw [seenOf_append, starts_append, hx]; exact List.mem_append_right _ (.head _))) with
      ⟨d', z', g1, g2, ⟨g3, g5⟩, g4⟩ | ⟨g1, g2⟩
    · refine ⟨m ++ [d'], z', .snoc h1 g1, by rw [seenOf_append, seenOf_append, h2, g2], by rw [carriedOut_append, carriedOut_append]; omega, fun c s h => ?_, g4⟩
      rcases List.mem_append.1 h with h | h
      · exact List.mem_append_left _ (h5 c s h)
      · exact List.mem_append_right _ (List.mem_singleton.2 (g5 c s (List.mem_singleton.1 h).symm).symm)
    · exact ⟨m, z, h1, by rw [seenOf_append, g1, h2, List.append_nil], by rw [carriedOut_append]; omega, fun c s h => List.mem_append_left _ (h5 c s h), g2⟩

theorem torn_start {w : World S} {n : Nat} (hw : Healthy w n) : TornRel H r p q n (Shaky.start w) (Torn.start w) :=
  ⟨hw, fun _ => rfl, rfl, fun _ => .none, fun _ _ => rfl, fun _ _ _ h => by cases h⟩

theorem TornRel.fine (hp : ∀ k, r.primary.pick H k = .ok (p k)) (hq : ∀ k, r.secondary.pick H k = .ok (q k)) {n : Nat} {a : Shaky S} {z : Torn S}
    (h : TornRel H r p q n a z) : NextFine (fun _ => metaCall) a := by
  intro i s op f h1 h2
  have hi := h.each i
  rw [h1, h2] at hi
  generalize hx : some (Prog.call s op f) = u at hi
  generalize z.calls i = v at hi
  generalize hv : (none : Option (Res Out)) = y at hi
  cases hi with
  | none => cases hx
  | ran => cases hv
  | known => cases hv
  | missing => cases hv
  | called o ho =>
    obtain ⟨k, f', g1, g2, g3, -⟩ := stage_first hp hq ho
    rw [g2] at hx
    injection hx with hx
    injection hx with e1 e2 e3
    subst e2
    exact meta_proper (h.healthy.1 s).1 (g3 _) (by rintro ks rfl; exact ho)
  | did o res pr ho hst =>
    injection hx with hx
    subst hx
    obtain ⟨g1, g2⟩ := stage_good hst (a.world s)
    exact meta_proper (h.healthy.1 s).1 g1 g2
end

end Wired
end Verif
