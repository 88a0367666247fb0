import Verif.Spec.Linear
import Verif.Props.ReplicaSched
import Verif.Props.Sharding
/-!
C58: methods of one replica pool called by any number of goroutines at the same time: what the
callers see is what one call after the other on the primaries would give; the secondaries may be
left behind.
-/

namespace Verif
namespace Props
open Kv Spec Mc Pool Cluster

variable {S : Type} [DecidableEq S]

/-! ### a method in progress -/

/-- Calls on the secondary that succeed whatever it holds. -/
def Copies (o : Op) : Prop := (∃ i, o = .set i ∧ GoodMetaItem i ∧ i.cas = 0) ∨ ∃ k, o = .delete k ∧ Key k

theorem copies_good {o : Op} (h : Copies o) (s : Store) : GoodMetaOp s o := by
  rcases h with ⟨i, rfl, h, _⟩ | ⟨k, rfl, h⟩ <;> exact h

theorem copies_done {o : Op} (h : Copies o) (s : Store) : (metaApi s o).1 = .ok .done := by
  rcases h with ⟨i, rfl, _, h0⟩ | ⟨k, rfl, _⟩
  · simp only [metaApi, h0, Nat.lt_irrefl, if_false]
    have : (s.store .set i.key i.value (metaFlagsOf i) i.expiration).1 = .stored := by
      unfold Store.store
      cases s.find i.key <;> rfl
    rw [this]
  · rfl

/-- The second call of a method. -/
def CopyFor (o : Op) (k : Bytes) (o2 : Op) : Prop :=
  (∃ i, stored? o = some i ∧ i.key = k ∧ o2 = .set i) ∨ (o = .delete k ∧ o2 = .delete k)

/-- The end of Increment and Decrement: cluster/cluster.go:96-108, 118-129. -/
def finish (q : S) (k : Bytes) (n : Int) (item : Item) : Prog S :=
  .call q (.set (copyOf k item)) (andThen outDone fun _ => .ret (.ok (.num n)))

/-- Where a method that has made its first call is; `res` is the result of that call. -/
inductive Stage (H : Hashes) (r : ReplicaPool S) (p q : Bytes → S) (o : Op) (res : Res Out) : Prog S → Prop where
  | ret : Stage H r p q o res (.ret res)
  | copy (k : Bytes) (o2 : Op) (hk : o.key? = some k) (hc : Copies o2) (hf : CopyFor o k o2) (hres : res = .ok .done) :
      Stage H r p q o res (.call (q k) o2 (andThen outDone fun _ => .ret (.ok .done)))
  | read (k : Bytes) (hk : Key k) (n : Int) (ho : IsArith o) (hres : res = .ok (.num n)) (hkey : o.key? = some k) :
      Stage H r p q o res (.call (p k) (.get k) (andThen outItem (finish (q k) k n)))
  | write (k : Bytes) (n : Int) (ho : IsArith o) (hres : res = .ok (.num n)) (item : Item)
      (hi : GoodMetaItem (copyOf k item)) (hkey : o.key? = some k) : Stage H r p q o res (finish (q k) k n item)
  | missed (n : Int) (ho : IsArith o) (hres : res = .ok (.num n)) :
      Stage H r p q o res (.ret (.err .itemNotFound))

theorem metaApi_kind (s : Store) (o : Op) (x : Out) (ht : ∀ k e, o ≠ .touch k e)
    (h : (metaApi s o).1 = .ok x) : KindOf o x := by
  cases o with
  | get k => simp only [metaApi] at h; split at h <;> cases h; trivial
  | getMulti ks => cases h; trivial
  | set i => simp only [metaApi] at h; split at h <;> cases h; trivial
  | add i => simp only [metaApi] at h; split at h <;> cases h; trivial
  | replace i => simp only [metaApi] at h; split at h <;> cases h; trivial
  | delete k => cases h; trivial
  | touch k e => exact absurd rfl (ht k e)
  | flush => cases h; trivial
  | increment k d e => obtain ⟨n, rfl⟩ := arithApi_num _ _ _ _ _ h; trivial
  | decrement k d e => obtain ⟨n, rfl⟩ := arithApi_num _ _ _ _ _ h; trivial

theorem stage_two {H : Hashes} {r : ReplicaPool S} {p q : Bytes → S} (hp : ∀ k, r.primary.pick H k = .ok (p k))
    (hq : ∀ k, r.secondary.pick H k = .ok (q k)) {o o2 : Op} (k : Bytes)
    (hkey : o.key? = some k) (hk : ∀ s x, (metaApi s o).1 = .ok x → x = .done) (hc : Copies o2) (hf : CopyFor o k o2) :
    ∃ f, twoCalls H r k o o2 = .call (p k) o f ∧ ∀ s, Stage H r p q o (metaApi s o).1 (f (metaApi s o).1) := by
  unfold twoCalls
  rw [hp, hq]
  refine ⟨_, rfl, fun s => ?_⟩
  cases hx : (metaApi s o).1 with
  | err e => exact .ret
  | panic => exact .ret
  | ok x =>
    rw [hk s x hx]
    exact .copy k o2 hkey hc hf rfl

theorem stage_three {H : Hashes} {r : ReplicaPool S} {p q : Bytes → S} (hp : ∀ k, r.primary.pick H k = .ok (p k))
    (hq : ∀ k, r.secondary.pick H k = .ok (q k)) {o : Op} (k : Bytes) (hkey : Key k) (ho : IsArith o) (hok : o.key? = some k)
    (hk : ∀ s x, (metaApi s o).1 = .ok x → ∃ n, x = .num n) :
    ∃ f, threeCalls H r k o = .call (p k) o f ∧ ∀ s, Stage H r p q o (metaApi s o).1 (f (metaApi s o).1) := by
  unfold threeCalls
  rw [hp, hq]
  refine ⟨_, rfl, fun s => ?_⟩
  cases hx : (metaApi s o).1 with
  | err e => exact .ret
  | panic => exact .ret
  | ok x =>
    obtain ⟨n, rfl⟩ := hk s x hx
    exact .read k hkey n ho rfl hok

/-- The first call of a method is the operation itself, on the primary of the key. -/
theorem stage_first {H : Hashes} {r : ReplicaPool S} {p q : Bytes → S} (hp : ∀ k, r.primary.pick H k = .ok (p k))
    (hq : ∀ k, r.secondary.pick H k = .ok (q k)) {o : Op} (ho : PlainOp o) :
    ∃ k f, o.key? = some k ∧ replicaProg H r o = .call (p k) o f ∧ (∀ s, GoodMetaOp s o)
      ∧ ∀ s, Stage H r p q o (metaApi s o).1 (f (metaApi s o).1) := by
  have kind : ∀ (s : Store) (x : Out), (∀ k e, o ≠ .touch k e) → (metaApi s o).1 = .ok x → KindOf o x :=
    fun s x ht h => metaApi_kind s o x ht h
  cases o with
  | get k =>
    refine ⟨k, andThen outItem fun i => .ret (.ok (.item i)), rfl, ?_, fun _ => ho, fun s => ?_⟩
    · show onPick _ _ = _
      rw [hp]; rfl
    · cases hx : (metaApi s (.get k)).1 with
      | err e => exact .ret
      | panic => exact .ret
      | ok x =>
        have := kind s x (by simp) hx
        cases x <;> first | exact .ret | exact this.elim
  | set i =>
    obtain ⟨f, h1, h2⟩ := stage_two (o := .set i) hp hq i.key rfl
      (fun s x h => by have := kind s x (by simp) h; cases x <;> first | rfl | exact this.elim) (.inl ⟨i, rfl, ho⟩)
      (.inl ⟨i, rfl, rfl, rfl⟩)
    exact ⟨_, f, rfl, h1, fun _ => ho.1, h2⟩
  | add i =>
    obtain ⟨f, h1, h2⟩ := stage_two (o := .add i) hp hq i.key rfl
      (fun s x h => by have := kind s x (by simp) h; cases x <;> first | rfl | exact this.elim) (.inl ⟨i, rfl, ho⟩)
      (.inl ⟨i, rfl, rfl, rfl⟩)
    exact ⟨_, f, rfl, h1, fun _ => ho.1, h2⟩
  | replace i =>
    obtain ⟨f, h1, h2⟩ := stage_two (o := .replace i) hp hq i.key rfl
      (fun s x h => by have := kind s x (by simp) h; cases x <;> first | rfl | exact this.elim) (.inl ⟨i, rfl, ho⟩)
      (.inl ⟨i, rfl, rfl, rfl⟩)
    exact ⟨_, f, rfl, h1, fun _ => ho.1, h2⟩
  | delete k =>
    obtain ⟨f, h1, h2⟩ := stage_two (o := .delete k) hp hq k rfl
      (fun s x h => by have := kind s x (by simp) h; cases x <;> first | rfl | exact this.elim) (.inr ⟨k, rfl, ho⟩)
      (.inr ⟨rfl, rfl⟩)
    exact ⟨_, f, rfl, h1, fun _ => ho, h2⟩
  | increment k d e =>
    obtain ⟨f, h1, h2⟩ := stage_three (o := .increment k d e) hp hq k ho.1 trivial rfl
      (fun s x h => by have := kind s x (by simp) h; cases x <;> first | exact ⟨_, rfl⟩ | exact this.elim)
    exact ⟨_, f, rfl, h1, fun _ => ho, h2⟩
  | decrement k d e =>
    obtain ⟨f, h1, h2⟩ := stage_three (o := .decrement k d e) hp hq k ho.1 trivial rfl
      (fun s x h => by have := kind s x (by simp) h; cases x <;> first | exact ⟨_, rfl⟩ | exact this.elim)
    exact ⟨_, f, rfl, h1, fun _ => ho, h2⟩
  | touch k e => exact ho.elim
  | getMulti ks => exact ho.elim
  | flush => exact ho.elim

/-- The later calls leave the primaries alone. -/
theorem stage_step {H : Hashes} {r : ReplicaPool S} {p q : Bytes → S} (hpq : ∀ k k', p k ≠ q k') {o : Op}
    {res : Res Out} {s : S} {op : Op} {f : Res Out → Prog S} (h : Stage H r p q o res (.call s op f))
    {w : World S} {n : Nat} (hw : Healthy w (n + 1)) :
    Stage H r p q o res (f (callStep s op w).1) ∧ (∀ k, (callStep s op w).2 (p k) = w (p k))
      ∧ Healthy (callStep s op w).2 n := by
  cases h with
  | copy k o2 hk hc hf hres =>
    have hg := copies_good hc (w (q k))
    rw [callStep_meta (q k) op w (hw.1 _).1 hg, copies_done hc]
    refine ⟨?_, fun k' => by simp [World.update, hpq k' k], healthy_call hw _ _ hg⟩
    subst hres
    exact .ret
  | read k hk n' ho hres hkey =>
    have hg : GoodMetaOp (w (p k)) (.get k) := hk
    have hst : World.update w (p k) (metaApi (w (p k)) (.get k)).2 = w := by
      have : (metaApi (w (p k)) (.get k)).2 = w (p k) := by simp only [metaApi]; split <;> rfl
      rw [this]
      funext x
      by_cases hx : x = p k
      · subst hx; simp [World.update]
      · simp [World.update, hx]
    rw [callStep_meta (p k) _ w (hw.1 _).1 hg, hst]
    refine ⟨?_, fun _ => rfl, healthy_mono hw (by omega)⟩
    cases hf : (w (p k)).find k with
    | none =>
      simp only [metaApi, hf]
      exact .missed n' ho hres
    | some e =>
      simp only [metaApi, hf]
      exact .write k n' ho hres _ (copy_good (hw.1 _).1 hk hf) hkey
  | write k n' ho hres item hi =>
    have hc : Copies (.set (copyOf k item)) := .inl ⟨_, rfl, hi, rfl⟩
    have hg := copies_good hc (w (q k))
    rw [callStep_meta (q k) _ w (hw.1 _).1 hg, copies_done hc]
    refine ⟨?_, fun k' => by simp [World.update, hpq k' k], healthy_call hw _ _ hg⟩
    subst hres
    exact .ret

/-! ### all schedules -/

/-- The situation of C58. -/
structure PlainRun (H : Hashes) (name : S → Bytes) (ps qs : List S) (r : ReplicaPool S) (p q : Bytes → S)
    (w : World S) (jobs : List Op) (moves : List Move) : Prop where
  rings : TwoRings H name ps qs r
  primary : ∀ k, r.primary.pick H k = .ok (p k)
  secondary : ∀ k, r.secondary.pick H k = .ok (q k)
  kinds : ∀ o ∈ jobs, PlainOp o
  healthy : Healthy w moves.length

structure LinInv (H : Hashes) (r : ReplicaPool S) (p q : Bytes → S) (jobs : List Op) (n : Nat) (y : Sys S)
    (l : Seen S) : Prop where
  healthy : Healthy y.world n
  same : ∀ k, y.world (p k) = l.world (p k)
  len : y.threads.length = jobs.length
  stat : ∀ (i : Nat) (o : Op), jobs[i]? = some o → ∃ pr, y.threads[i]? = some pr ∧
    match l.results i with
    | none => pr = replicaProg H r o
    | some res => Stage H r p q o res pr

theorem lin_step {H : Hashes} {r : ReplicaPool S} {p q : Bytes → S} (hp : ∀ k, r.primary.pick H k = .ok (p k))
    (hq : ∀ k, r.secondary.pick H k = .ok (q k)) (hpq : ∀ k k', p k ≠ q k') {jobs : List Op}
    (hj : ∀ o ∈ jobs, PlainOp o) {n : Nat} {y : Sys S} {l : Seen S} (h : LinInv H r p q jobs (n + 1) y l) (m : Move) :
    LinInv H r p q jobs n (y.step m) (l.step p jobs m) := by
  cases m with
  | tick d =>
    exact ⟨healthy_tick (healthy_ge h.healthy) d, fun k => by
      show (y.world (p k)).tick d = (l.world (p k)).tick d
      rw [h.same], h.len, h.stat⟩
  | run i =>
    cases hi : jobs[i]? with
    | none =>
      have hn : y.threads[i]? = none := by
        rw [List.getElem?_eq_none_iff] at hi ⊢
        rw [h.len]; exact hi
      have e1 : y.step (.run i) = y := by simp only [Sys.step, hn]
      have e2 : l.step p jobs (.run i) = l := by simp only [Seen.step, hi]
      rw [e1, e2]
      exact ⟨healthy_ge h.healthy, h.same, h.len, h.stat⟩
    | some o =>
      obtain ⟨pr, hpr, hst⟩ := h.stat i o hi
      have hlt : i < y.threads.length := (List.getElem?_eq_some_iff.1 hpr).1
      cases hres : l.results i with
      | none =>
        rw [hres] at hst
        simp only at hst
        obtain ⟨k, f, hk, hprog, hgood, hstage⟩ := stage_first hp hq (hj o (List.mem_of_getElem? hi))
        rw [hst, hprog] at hpr
        have hcall := callStep_meta (p k) o y.world (h.healthy.1 _).1 (hgood _)
        have hat : atOnce p l.world o
            = ((metaApi (y.world (p k)) o).1, World.update l.world (p k) (metaApi (y.world (p k)) o).2) := by
          unfold atOnce
          rw [hk]
          simp only
          rw [h.same k]
        have e1 : y.step (.run i) = { world := World.update y.world (p k) (metaApi (y.world (p k)) o).2
                                      threads := y.threads.set i (f (metaApi (y.world (p k)) o).1) } := by
          simp only [Sys.step, hpr, hcall]
        have e2 : l.step p jobs (.run i) = { world := World.update l.world (p k) (metaApi (y.world (p k)) o).2
                                             results := fun j => if j = i then some (metaApi (y.world (p k)) o).1 else l.results j } := by
          simp only [Seen.step, hi, hres, hat]
        rw [e1, e2]
        refine ⟨healthy_call h.healthy _ _ (hgood _), ?_, by simp [h.len], ?_⟩
        · intro k'
          simp only [World.update]
          split
          · rfl
          · exact h.same k'
        · intro j o' ho'
          by_cases hj' : j = i
          · subst hj'
            rw [hi] at ho'
            cases ho'
            refine ⟨_, List.getElem?_set_self hlt, ?_⟩
            simp only [if_true]
            exact hstage _
          · obtain ⟨pr', h1, h2⟩ := h.stat j o' ho'
            refine ⟨pr', by rw [List.getElem?_set_ne (Ne.symm hj')]; exact h1, ?_⟩
            simp only [hj', if_false]
            exact h2
      | some res =>
        rw [hres] at hst
        simp only at hst
        have e2 : l.step p jobs (.run i) = l := by simp only [Seen.step, hi, hres]
        rw [e2]
        cases pr with
        | ret x =>
          have e1 : y.step (.run i) = y := by simp only [Sys.step, hpr]
          rw [e1]
          exact ⟨healthy_ge h.healthy, h.same, h.len, h.stat⟩
        | call s op f =>
          obtain ⟨h1, h2, h3⟩ := stage_step hpq hst h.healthy
          have e1 : y.step (.run i) = { world := (callStep s op y.world).2
                                        threads := y.threads.set i (f (callStep s op y.world).1) } := by
            simp only [Sys.step, hpr]
          rw [e1]
          refine ⟨h3, fun k => (h2 k).trans (h.same k), by simp [h.len], ?_⟩
          intro j o' ho'
          by_cases hj' : j = i
          · subst hj'
            rw [hi] at ho'
            cases ho'
            refine ⟨_, List.getElem?_set_self hlt, ?_⟩
            rw [hres]
            exact h1
          · obtain ⟨pr', h4, h5⟩ := h.stat j o' ho'
            exact ⟨pr', by rw [List.getElem?_set_ne (Ne.symm hj')]; exact h4, h5⟩

/-- Before anything happens. -/
def Seen.start (w : World S) : Seen S := ⟨w, fun _ => none⟩

theorem lin_run {H : Hashes} {r : ReplicaPool S} {p q : Bytes → S} (hp : ∀ k, r.primary.pick H k = .ok (p k))
    (hq : ∀ k, r.secondary.pick H k = .ok (q k)) (hpq : ∀ k k', p k ≠ q k') {jobs : List Op}
    (hj : ∀ o ∈ jobs, PlainOp o) (moves : List Move) {n : Nat} {y : Sys S} {l : Seen S}
    (h : LinInv H r p q jobs (n + moves.length) y l) :
    LinInv H r p q jobs n (y.run moves) (l.run p jobs moves) := by
  induction moves generalizing y l with
  | nil => exact h
  | cons m rest ih => exact ih (lin_step hp hq hpq hj (n := n + rest.length) h m)

theorem PlainRun.inv {H : Hashes} {name : S → Bytes} {ps qs : List S} {r : ReplicaPool S} {p q : Bytes → S}
    {w : World S} {jobs : List Op} {moves : List Move} (c : PlainRun H name ps qs r p q w jobs moves) :
    LinInv H r p q jobs 0 ((Sys.start H r w jobs).run moves) ((Seen.start w).run p jobs moves) := by
  refine lin_run c.primary c.secondary (fun k k' => c.rings.ne (c.primary k) (c.secondary k')) c.kinds moves
    ⟨?_, fun _ => rfl, by simp [Sys.start], ?_⟩
  · rw [Nat.zero_add]; exact c.healthy
  · intro i o ho
    exact ⟨replicaProg H r o, by simp [Sys.start, ho], rfl⟩

/-- C58: in every schedule, at every moment, the primaries hold what they would hold if every call
had been carried out at once on the primary of its key, at the moment of its first step; and every
call that has returned has returned the result of that moment.  The only exception are Increment
and Decrement, which also fail with ItemNotFound, although they took effect, when the key is deleted
or expires while they run. -/
theorem C58_linear {H : Hashes} {name : S → Bytes} {ps qs : List S} {r : ReplicaPool S} {p q : Bytes → S}
    {w : World S} {jobs : List Op} {moves : List Move} (c : PlainRun H name ps qs r p q w jobs moves) :
    (∀ k, ((Sys.start H r w jobs).run moves).world (p k) = ((Seen.start w).run p jobs moves).world (p k))
    ∧ ∀ (i : Nat) (o : Op) (res : Res Out), jobs[i]? = some o →
        ((Sys.start H r w jobs).run moves).threads[i]? = some (.ret res) →
        ((Seen.start w).run p jobs moves).results i = some res
        ∨ IsArith o ∧ res = .err .itemNotFound
          ∧ ∃ n, ((Seen.start w).run p jobs moves).results i = some (.ok (.num n)) := by
  have h := c.inv
  refine ⟨h.same, fun i o res hi hres => ?_⟩
  obtain ⟨pr, h1, h2⟩ := h.stat i o hi
  rw [hres] at h1
  cases h1
  cases hl : ((Seen.start w).run p jobs moves).results i with
  | none =>
    rw [hl] at h2
    obtain ⟨k, f, _, hprog, _⟩ := stage_first (q := q) c.primary c.secondary (c.kinds o (List.mem_of_getElem? hi))
    rw [hprog] at h2
    cases h2
  | some x =>
    rw [hl] at h2
    simp only at h2
    cases h2 with
    | ret => exact .inl rfl
    | missed n ho hx => exact .inr ⟨ho, rfl, n, by rw [hx]⟩

/-! ### every call returns -/

/-- Returns after at most `n` calls on servers, whatever these return. -/
inductive Within : Nat → Prog S → Prop where
  | ret (n : Nat) (r : Res Out) : Within n (.ret r)
  | call (n : Nat) (s : S) (op : Op) (f : Res Out → Prog S) (h : ∀ x, Within n (f x)) : Within (n + 1) (.call s op f)

omit [DecidableEq S] in
theorem within_andThen {α : Type} {n : Nat} (out : Out → Option α) (f : α → Prog S) (h : ∀ a, Within n (f a)) (x : Res Out) :
    Within n (andThen out f x) := by
  unfold andThen
  cases x with
  | err e => exact .ret _ _
  | panic => exact .ret _ _
  | ok x =>
    show Within n (match out x with | some a => f a | none => .ret .panic)
    cases out x with
    | none => exact .ret _ _
    | some a => exact h a

omit [DecidableEq S] in
theorem within_onPick {n : Nat} (p : Res S) (f : S → Prog S) (h : ∀ s, Within n (f s)) : Within n (onPick p f) := by
  cases p with
  | err e => exact .ret _ _
  | panic => exact .ret _ _
  | ok s => exact h s

omit [DecidableEq S] in
theorem Within.mono {n m : Nat} {pr : Prog S} (h : Within n pr) (hm : n ≤ m) : Within m pr := by
  induction h generalizing m with
  | ret n r => exact .ret _ _
  | call n s op f _ ih =>
    obtain ⟨m', rfl⟩ : ∃ m', m = m' + 1 := ⟨m - 1, by omega⟩
    exact .call _ _ _ _ fun x => ih x (by omega)

omit [DecidableEq S] in
theorem within_two (H : Hashes) (r : ReplicaPool S) (k : Bytes) (o1 o2 : Op) : Within 2 (twoCalls H r k o1 o2) :=
  within_onPick _ _ fun p => .call _ _ _ _ (within_andThen _ _ fun _ =>
    within_onPick _ _ fun q => .call _ _ _ _ (within_andThen _ _ fun _ => .ret _ _))

omit [DecidableEq S] in
theorem within_prog (H : Hashes) (r : ReplicaPool S) (o : Op) : Within 3 (replicaProg H r o) := by
  have h3 : ∀ k o, Within 3 (threeCalls H r k o) := fun k o =>
    within_onPick _ _ fun p => .call _ _ _ _ (within_andThen _ _ fun _ => .call _ _ _ _ (within_andThen _ _ fun _ =>
      within_onPick _ _ fun q => .call _ _ _ _ (within_andThen _ _ fun _ => .ret _ _)))
  cases o with
  | get k =>
    refine Within.mono (n := 1) ?_ (by omega)
    exact within_onPick _ _ fun p => .call _ _ _ _ (within_andThen _ _ fun _ => .ret _ _)
  | set i => exact (within_two H r _ _ _).mono (by omega)
  | add i => exact (within_two H r _ _ _).mono (by omega)
  | replace i => exact (within_two H r _ _ _).mono (by omega)
  | delete k => exact (within_two H r _ _ _).mono (by omega)
  | increment k d e => exact h3 _ _
  | decrement k d e => exact h3 _ _
  | touch k e => exact .ret _ _
  | getMulti ks => exact .ret _ _
  | flush => exact .ret _ _

theorem within_run (i : Nat) (moves : List Move) (n : Nat) (y : Sys S) (pr : Prog S)
    (h : y.threads[i]? = some pr) (hw : Within n pr) :
    ∃ pr', (y.run moves).threads[i]? = some pr' ∧ Within (n - moves.count (.run i)) pr' := by
  induction moves generalizing n y pr with
  | nil => exact ⟨pr, h, by simpa using hw⟩
  | cons m rest ih =>
    have hlt : i < y.threads.length := (List.getElem?_eq_some_iff.1 h).1
    cases m with
    | tick d =>
      obtain ⟨pr', h1, h2⟩ := ih n (y.step (.tick d)) pr h hw
      refine ⟨pr', h1, ?_⟩
      rw [List.count_cons_of_ne (by simp)]
      exact h2
    | run j =>
      by_cases hj : j = i
      · subst hj
        rw [List.count_cons_self]
        cases hw with
        | ret n x =>
          have e : y.step (.run j) = y := by simp only [Sys.step, h]
          obtain ⟨pr', h1, h2⟩ := ih (n - 1) y _ h (.ret _ x)
          refine ⟨pr', ?_, by rw [show n - (rest.count (.run j) + 1) = n - 1 - rest.count (.run j) by omega]; exact h2⟩
          show ((y.step (.run j)).run rest).threads[j]? = _
          rw [e]; exact h1
        | call n s op f hf =>
          have e : (y.step (.run j)).threads = y.threads.set j (f (callStep s op y.world).1) := by
            simp only [Sys.step, h]
          obtain ⟨pr', h1, h2⟩ := ih n (y.step (.run j)) (f (callStep s op y.world).1)
            (by rw [e]; exact List.getElem?_set_self hlt) (hf _)
          exact ⟨pr', h1, by rw [show n + 1 - (rest.count (.run j) + 1) = n - rest.count (.run j) by omega]; exact h2⟩
      · have e : (y.step (.run j)).threads[i]? = some pr := by
          simp only [Sys.step]
          split
          · rw [List.getElem?_set_ne hj]; exact h
          · exact h
        obtain ⟨pr', h1, h2⟩ := ih n (y.step (.run j)) pr e hw
        refine ⟨pr', h1, ?_⟩
        rw [List.count_cons_of_ne (by simp [hj])]
        exact h2

/-- C58: a call returns after at most three steps of its own goroutine, whatever the others do and
whatever the servers hold: no call waits for another. -/
theorem C58_returns (H : Hashes) (r : ReplicaPool S) (w : World S) (jobs : List Op) (moves : List Move) (i : Nat)
    (hi : i < jobs.length) (h3 : 3 ≤ moves.count (.run i)) :
    ∃ res, ((Sys.start H r w jobs).run moves).threads[i]? = some (.ret res) := by
  obtain ⟨pr, h1, h2⟩ := within_run i moves 3 (Sys.start H r w jobs) (replicaProg H r jobs[i])
    (by simp [Sys.start, hi]) (within_prog H r _)
  rw [show 3 - moves.count (.run i) = 0 by omega] at h2
  cases h2 with
  | ret _ x => exact ⟨x, h1⟩

/-! ### the secondaries -/

theorem set_data {i : Item} (h0 : i.cas = 0) (s : Store) :
    (metaApi s (.set i)).2.data i.key = some ⟨i.value, metaFlagsOf i, expiryOf s.now i.expiration, s.nextCas⟩ := by
  have : s.store (if 0 < i.cas then .cas i.cas else .set) i.key i.value (metaFlagsOf i) i.expiration
      = (.stored, s.put i.key i.value (metaFlagsOf i) (expiryOf s.now i.expiration)) := by
    rw [h0]
    unfold Store.store
    simp only [Nat.lt_irrefl, if_false]
  simp only [metaApi, this]
  exact put_at _ _ _ _ _

theorem delete_data (k : Bytes) (s : Store) :
    (metaApi s (.delete k)).2.data k = none ∨ (metaApi s (.delete k)).2 = s := by
  simp only [metaApi, Store.delete]
  cases s.find k with
  | none => exact .inr rfl
  | some e => exact .inl (write_at _ _ _)

/-- The secondaries hold what they held, or what a call that took effect has stored. -/
def SecInv (q : Bytes → S) (w : World S) (jobs : List Op) (y : Sys S) (l : Seen S) : Prop :=
  ∀ k e, (y.world (q k)).data k = some e → (w (q k)).data k = some e ∨
    ∃ i o item, jobs[i]? = some o ∧ stored? o = some item ∧ item.key = k ∧ l.results i = some (.ok .done)
      ∧ e.value = item.value ∧ e.flags = metaFlagsOf item

theorem plain_copy {o : Op} (h : CopyOp o) : PlainOp o := by
  cases o <;> first | exact h | exact h.elim

theorem results_keep {p : Bytes → S} {jobs : List Op} {l : Seen S} {i : Nat} {x : Res Out} (h : l.results i = some x)
    (m : Move) : (l.step p jobs m).results i = some x := by
  cases m with
  | tick d => exact h
  | run j =>
    simp only [Seen.step]
    split
    · rename_i o ho hn
      simp only
      split
      · rename_i hij
        rw [hij, hn] at h
        cases h
      · exact h
    · exact h

theorem sec_step {H : Hashes} {r : ReplicaPool S} {p q : Bytes → S} (hp : ∀ k, r.primary.pick H k = .ok (p k))
    (hq : ∀ k, r.secondary.pick H k = .ok (q k)) (hpq : ∀ k k', p k ≠ q k') {jobs : List Op}
    (hj : ∀ o ∈ jobs, CopyOp o) {w : World S} {n : Nat} {y : Sys S} {l : Seen S} (h : LinInv H r p q jobs (n + 1) y l)
    (hs : SecInv q w jobs y l) (m : Move) : SecInv q w jobs (y.step m) (l.step p jobs m) := by
  have keep : ∀ k e, ((w (q k)).data k = some e ∨
      ∃ i o item, jobs[i]? = some o ∧ stored? o = some item ∧ item.key = k ∧ l.results i = some (.ok .done)
        ∧ e.value = item.value ∧ e.flags = metaFlagsOf item) → ((w (q k)).data k = some e ∨
      ∃ i o item, jobs[i]? = some o ∧ stored? o = some item ∧ item.key = k ∧ (l.step p jobs m).results i = some (.ok .done)
        ∧ e.value = item.value ∧ e.flags = metaFlagsOf item) := by
    rintro k e (h | ⟨i, o, item, h1, h2, h3, h4, h5⟩)
    · exact .inl h
    · exact .inr ⟨i, o, item, h1, h2, h3, results_keep h4 m, h5⟩
  intro k e he
  cases m with
  | tick d => exact keep k e (hs k e he)
  | run i =>
    cases hi : jobs[i]? with
    | none =>
      have hn : y.threads[i]? = none := by
        rw [List.getElem?_eq_none_iff] at hi ⊢
        rw [h.len]; exact hi
      have e1 : y.step (.run i) = y := by simp only [Sys.step, hn]
      rw [e1] at he
      exact keep k e (hs k e he)
    | some o =>
      obtain ⟨pr, hpr, hst⟩ := h.stat i o hi
      have hco := hj o (List.mem_of_getElem? hi)
      cases pr with
      | ret x =>
        have e1 : y.step (.run i) = y := by simp only [Sys.step, hpr]
        rw [e1] at he
        exact keep k e (hs k e he)
      | call s op f =>
        have e1 : (y.step (.run i)).world = (callStep s op y.world).2 := by simp only [Sys.step, hpr]
        rw [e1] at he
        cases hres : l.results i with
        | none =>
          rw [hres] at hst
          obtain ⟨k', f', hk', hprog, hgood, _⟩ := stage_first (q := q) hp hq (plain_copy hco)
          rw [hprog] at hst
          cases hst
          rw [callStep_meta (p k') o y.world (h.healthy.1 _).1 (hgood _)] at he
          simp only [World.update, Ne.symm (hpq k' k), if_false] at he
          exact keep k e (hs k e he)
        | some res =>
          rw [hres] at hst
          simp only at hst
          cases hst with
          | copy k' o2 hk' hc hf hres' =>
            rw [callStep_meta (q k') op y.world (h.healthy.1 _).1 (copies_good hc _)] at he
            simp only [World.update] at he
            split at he
            · rename_i hqk
              rw [← hqk] at he
              rcases hf with ⟨it, h1, h2, rfl⟩ | ⟨rfl, rfl⟩
              · by_cases hkk : k = k'
                · subst hkk
                  have h0 : it.cas = 0 := by
                    rcases hc with ⟨it', h3, h4, h5⟩ | ⟨_, h3, _⟩
                    · cases h3; exact h5
                    · cases h3
                  have hd := set_data h0 (y.world (q k))
                  rw [h2] at hd
                  rw [hd] at he
                  cases he
                  exact keep k _ (.inr ⟨i, o, it, hi, h1, h2, by rw [hres, hres'], rfl, rfl⟩)
                · rw [(Touches.set it _).2 k (by rw [h2]; exact hkk)] at he
                  exact keep k e (hs k e he)
              · by_cases hkk : k = k'
                · subst hkk
                  rcases delete_data k (y.world (q k)) with h1 | h1
                  · rw [h1] at he; cases he
                  · rw [h1] at he
                    exact keep k e (hs k e he)
                · rw [show (metaApi (y.world (q k)) (.delete k')).2 = ((y.world (q k)).delete k').2 from rfl,
                    (Touches.delete k' _).2 k hkk] at he
                  exact keep k e (hs k e he)
            · exact keep k e (hs k e he)
          | read k' hk' n' ho => cases o <;> first | exact ho.elim | exact hco.elim
          | write k' n' ho => cases o <;> first | exact ho.elim | exact hco.elim

theorem sec_run {H : Hashes} {r : ReplicaPool S} {p q : Bytes → S} (hp : ∀ k, r.primary.pick H k = .ok (p k))
    (hq : ∀ k, r.secondary.pick H k = .ok (q k)) (hpq : ∀ k k', p k ≠ q k') {jobs : List Op}
    (hj : ∀ o ∈ jobs, CopyOp o) {w : World S} (moves : List Move) {n : Nat} {y : Sys S} {l : Seen S}
    (h : LinInv H r p q jobs (n + moves.length) y l) (hs : SecInv q w jobs y l) :
    SecInv q w jobs (y.run moves) (l.run p jobs moves) := by
  induction moves generalizing y l with
  | nil => exact hs
  | cons m rest ih =>
    exact ih (lin_step hp hq hpq (fun o ho => plain_copy (hj o ho)) (n := n + rest.length) h m)
      (sec_step hp hq hpq hj (n := n + rest.length) h hs m)

/-- C58: whatever the schedule, a secondary never holds anything but what it held before or what
some Set, Add or Replace of that very key, which took effect on the primary, has stored.  (For
Increment and Decrement see C45.) -/
theorem C58_secondary {H : Hashes} {name : S → Bytes} {ps qs : List S} {r : ReplicaPool S} {p q : Bytes → S}
    {w : World S} {jobs : List Op} {moves : List Move} (c : PlainRun H name ps qs r p q w jobs moves)
    (hj : ∀ o ∈ jobs, CopyOp o) (k : Bytes) (e : Entry)
    (he : (((Sys.start H r w jobs).run moves).world (q k)).data k = some e) :
    (w (q k)).data k = some e ∨
      ∃ i o item, jobs[i]? = some o ∧ stored? o = some item ∧ item.key = k
        ∧ ((Seen.start w).run p jobs moves).results i = some (.ok .done)
        ∧ e.value = item.value ∧ e.flags = metaFlagsOf item := by
  have hs := sec_run c.primary c.secondary (fun k k' => c.rings.ne (c.primary k) (c.secondary k')) hj (w := w)
    moves (n := 0) (y := Sys.start H r w jobs) (l := Seen.start w) ?_ (fun k e he => .inl he)
  · exact hs k e he
  · refine ⟨by rw [Nat.zero_add]; exact c.healthy, fun _ => rfl, by simp [Sys.start], fun i o ho => ?_⟩
    exact ⟨replicaProg H r o, by simp [Sys.start, ho], rfl⟩

end Props
end Verif
