import Verif.Spec.Counter
import Verif.Props.ReplicaCopies
/-!
C45: methods of one replica pool called by any number of goroutines, in every schedule.
-/

namespace Verif
namespace Props
open Kv Spec Mc Pool Cluster

variable {S : Type} [DecidableEq S]

/-! ### A method run without interruption is the method -/

theorem callOn_some {α : Type} (s : S) (o : Op) (out : Out → Option α) (w : World S) :
    callOn (fun _ => metaCall) s o out w = (resOut out (callStep s o w).1, (callStep s o w).2) := by
  unfold callStep callOn
  generalize exchange (metaCall o) (w s) = x
  cases x with
  | none => rfl
  | some r =>
    obtain ⟨r1, r2⟩ := r
    cases r1 with
    | ok x => dsimp only [resOut]; cases out x <;> rfl
    | err e => rfl
    | panic => rfl

theorem alone_andThen {α : Type} (out : Out → Option α) (f : α → Prog S) (g : α → Act (World S) Out)
    (s : S) (o : Op) (w : World S) (hfg : ∀ a w, (f a).alone w = g a w) :
    (Prog.call s o (andThen out f)).alone w = (callOn (fun _ => metaCall) s o out >>= g) w := by
  rw [Act.bind_apply, callOn_some]
  show (andThen out f (callStep s o w).1).alone _ = _
  generalize callStep s o w = c
  obtain ⟨c1, c2⟩ := c
  cases c1 with
  | ok x =>
    dsimp only [resOut, andThen]
    cases out x with
    | some a => exact hfg a c2
    | none => rfl
  | err e => rfl
  | panic => rfl

theorem alone_last (s : S) (o : Op) (x : Out) (w : World S) :
    (Prog.call s o (andThen outDone fun _ => .ret (.ok x))).alone w
      = actOut (fun _ => x) (callOn (fun _ => metaCall) s o outDone) w := by
  rw [alone_andThen outDone _ (fun _ => Act.lift (.ok x)) s o w (fun _ _ => rfl), Act.bind_apply]
  unfold actOut
  generalize callOn (fun _ => metaCall) s o outDone w = c
  obtain ⟨c1, c2⟩ := c
  cases c1 <;> rfl

theorem actOut_bind {α β : Type} (f : β → Out) (m : Act (World S) α) (g : α → Act (World S) β) (w : World S) :
    actOut f (m >>= g) w = (Bind.bind (m := Act (World S)) m fun a => actOut f (g a)) w := by
  show (Res.map f (Act.bind m g w).1, (Act.bind m g w).2) = Act.bind m (fun a w => (Res.map f (g a w).1, (g a w).2)) w
  unfold Act.bind
  generalize m w = c
  obtain ⟨c1, c2⟩ := c
  cases c1 <;> rfl

theorem alone_two (H : Hashes) (name : S → Bytes) (r : ReplicaPool S) (k : Bytes) (o1 o2 : Op)
    (f1 f2 : ServerOps (World S) → Act (World S) Unit)
    (h1 : ∀ s, f1 ((metaEnv H name).ops s) = callOn (fun _ => metaCall) s o1 outDone)
    (h2 : ∀ s, f2 ((metaEnv H name).ops s) = callOn (fun _ => metaCall) s o2 outDone) (w : World S) :
    (twoCalls H r k o1 o2).alone w = actOut (fun _ => .done) (do
      onPicked (metaEnv H name) r.primary k f1
      onPicked (metaEnv H name) r.secondary k f2) w := by
  unfold twoCalls onPicked
  have hH : (metaEnv H name : Env S (World S)).H = H := rfl
  rw [hH]
  cases r.primary.pick H k with
  | err e => rfl
  | panic => rfl
  | ok p =>
    show (Prog.call p o1 _).alone w = actOut _ (f1 _ >>= _) w
    rw [h1, actOut_bind]
    refine alone_andThen _ _ _ p o1 w fun a w' => ?_
    cases r.secondary.pick H k with
    | err e => rfl
    | panic => rfl
    | ok q =>
      show (Prog.call q o2 _).alone w' = actOut _ (f2 _) w'
      rw [h2]
      exact alone_last q o2 .done w'

theorem alone_three (H : Hashes) (name : S → Bytes) (r : ReplicaPool S) (k : Bytes) (o : Op)
    (f : ServerOps (World S) → Act (World S) Int)
    (h1 : ∀ s, f ((metaEnv H name).ops s) = callOn (fun _ => metaCall) s o outNum) (w : World S) :
    (threeCalls H r k o).alone w = actOut .num (do
      let s ← Act.lift (r.primary.pick H k)
      let n ← f ((metaEnv H name).ops s)
      let item ← ((metaEnv H name).ops s).get k
      onPicked (metaEnv H name) r.secondary k (·.set (copyOf k item))
      pure n) w := by
  unfold threeCalls onPicked
  have hH : (metaEnv H name : Env S (World S)).H = H := rfl
  rw [hH]
  cases r.primary.pick H k with
  | err e => rfl
  | panic => rfl
  | ok p =>
    rw [Act.lift_ok_bind, h1, actOut_bind]
    refine alone_andThen _ _ _ p o w fun n w' => ?_
    rw [actOut_bind]
    refine alone_andThen _ _ _ p (.get k) w' fun item w'' => ?_
    cases r.secondary.pick H k with
    | err e => rfl
    | panic => rfl
    | ok q =>
      rw [Act.lift_ok_bind, actOut_bind]
      exact alone_andThen outDone (fun _ => .ret (.ok (.num n))) (fun _ => actOut .num (Pure.pure n)) q (.set (copyOf k item)) w'' fun _ _ => rfl

/-- C45: without interference the sequence of calls considered here is exactly the pool's method
(for every operation on a single key), on every pool and every state of the servers. -/
theorem C45_sequential (H : Hashes) (name : S → Bytes) (r : ReplicaPool S)
    (order : List (Bytes × List Bytes) → List (Bytes × List Bytes)) (w : World S) (op : Op) (h : op.key?.isSome)
    (ht : ∀ k e, op ≠ .touch k e) :
    (replicaProg H r op).alone w = replicaCall H name r order w op := by
  cases op with
  | get k =>
    show (onPick _ _).alone w = actOut _ (onPicked _ _ _ _) w
    unfold onPicked
    have hH : (metaEnv H name : Env S (World S)).H = H := rfl
    rw [hH]
    cases r.primary.pick H k with
    | err e => rfl
    | panic => rfl
    | ok p =>
      show (Prog.call p _ _).alone w = actOut _ (callOn (fun _ => metaCall) p (.get k) outItem) w
      rw [alone_andThen outItem _ (fun i => Act.lift (.ok (.item i))) p _ w (fun _ _ => rfl), Act.bind_apply]
      unfold actOut
      generalize callOn (fun _ => metaCall) p (.get k) outItem w = c
      obtain ⟨c1, c2⟩ := c
      cases c1 <;> rfl
  | set i => exact alone_two H name r i.key _ _ (·.set i) (·.set i) (fun _ => rfl) (fun _ => rfl) w
  | add i => exact alone_two H name r i.key _ _ (·.add i) (·.set i) (fun _ => rfl) (fun _ => rfl) w
  | replace i => exact alone_two H name r i.key _ _ (·.replace i) (·.set i) (fun _ => rfl) (fun _ => rfl) w
  | delete k => exact alone_two H name r k _ _ (·.delete k) (·.delete k) (fun _ => rfl) (fun _ => rfl) w
  | increment k d e => exact alone_three H name r k _ (·.increment k d e) (fun _ => rfl) w
  | decrement k d e => exact alone_three H name r k _ (·.decrement k d e) (fun _ => rfl) w
  | touch k e => exact absurd rfl (ht k e)
  | getMulti ks => cases h
  | flush => cases h

/-! ### One step -/

theorem callStep_meta (s : S) (o : Op) (w : World S) (hs : GoodMetaStore (w s)) (ho : GoodMetaOp (w s) o) :
    callStep s o w = ((metaApi (w s) o).1, World.update w s (metaApi (w s) o).2) := by
  unfold callStep
  rw [callOn_meta s o some w hs ho]
  cases (metaApi (w s) o).1 <;> rfl

theorem touches_op (o : Op) (k : Bytes) (hk : o.key? = some k) (ht : ∀ k e, o ≠ .touch k e) (s : Store) :
    Touches k s (metaApi s o).2 := by
  cases o with
  | get k' => simp only [metaApi]; split <;> exact .refl ..
  | set i => cases hk; exact Touches.set i s
  | add i => cases hk; exact Touches.store i.key s .add _ _ _
  | replace i => cases hk; exact Touches.store i.key s .replace _ _ _
  | delete k' => cases hk; exact Touches.delete _ s
  | increment k' d e => cases hk; exact Touches.arithApi _ s _ _
  | decrement k' d e => cases hk; exact Touches.arithApi _ s _ _
  | touch k' e => exact absurd rfl (ht k' e)
  | getMulti ks => cases hk
  | flush => cases hk

/-- A call that is good in every state of the server, and does not change key `k`. -/
def SafeOp (k : Bytes) (o : Op) : Prop :=
  (∀ st, GoodMetaStore st → GoodMetaOp st o) ∧ (o = .get k ∨ ∃ k', o.key? = some k' ∧ k' ≠ k ∧ ∀ x e, o ≠ .touch x e)

/-- A method in progress that will not change key `k` any more. -/
def Safe (k : Bytes) : Prog S → Prop
  | .ret _ => True
  | .call _ op f => SafeOp k op ∧ ∀ st, GoodMetaStore st → Safe k (f (metaApi st op).1)

theorem SafeOp.data {k : Bytes} {o : Op} (h : SafeOp k o) (s : Store) : (metaApi s o).2.data k = s.data k := by
  rcases h.2 with rfl | ⟨k', hk, hne, ht⟩
  · simp only [metaApi]; split <;> rfl
  · exact (touches_op o k' hk ht s).2 k (Ne.symm hne)

theorem Safe.andThen {k : Bytes} {α : Type} (out : Out → Option α) (f : α → Prog S) (r : Res Out)
    (h : ∀ x a, r = .ok x → out x = some a → Safe k (f a)) : Safe k (Cluster.andThen out f r) := by
  cases r with
  | err e => trivial
  | panic => trivial
  | ok x =>
    unfold Cluster.andThen
    dsimp only
    cases ho : out x with
    | none => trivial
    | some a => exact h x a rfl ho

theorem Safe.onPick {k : Bytes} (p : Res S) (f : S → Prog S) (h : ∀ s, Safe k (f s)) : Safe k (Cluster.onPick p f) := by
  cases p with
  | err e => trivial
  | panic => trivial
  | ok s => exact h s

theorem safe_two (H : Hashes) (r : ReplicaPool S) {k k' : Bytes} {o1 o2 : Op} (h1 : SafeOp k o1) (h2 : SafeOp k o2) :
    Safe k (twoCalls H r k' o1 o2) := by
  unfold twoCalls
  refine Safe.onPick _ _ fun p => ⟨h1, fun st _ => Safe.andThen _ _ _ fun x a _ _ => ?_⟩
  refine Safe.onPick _ _ fun q => ⟨h2, fun st _ => Safe.andThen _ _ _ fun x a _ _ => trivial⟩

/-- The item read from a server in good state can be stored on another. -/
theorem copy_good {s : Store} (hs : GoodMetaStore s) {k : Bytes} (hk : Key k) {e : Entry} (hf : s.find k = some e) :
    GoodMetaItem (copyOf k (metaItem s.now k e)) := by
  obtain ⟨f1, f2, f3, f4⟩ := hs.good.entry k _ (find_data hf)
  refine ⟨⟨hk, f3, lifetime_range hs.good hf, by simp [copyOf]⟩, ?_⟩
  intro f hf'
  simp only [copyOf, metaItem, Option.some.injEq] at hf'
  subst hf'
  refine ⟨putBE_length 4 _, ?_⟩
  unfold Flags31
  rw [getBE_putBE_lt 4 _ f1]
  exact hs.flags k _ (find_data hf)

theorem get_ok {s : Store} {k : Bytes} {x : Out} {a : Item} (h : (metaApi s (.get k)).1 = .ok x) (ho : outItem x = some a) :
    ∃ e, s.find k = some e ∧ a = metaItem s.now k e := by
  simp only [metaApi] at h
  cases hf : s.find k with
  | none => rw [hf] at h; cases h
  | some e =>
    rw [hf] at h
    cases h
    cases ho
    exact ⟨e, rfl, rfl⟩

theorem safe_three (H : Hashes) (r : ReplicaPool S) {k k' : Bytes} {o : Op} (h1 : SafeOp k o) (hk : Key k') (hne : k' ≠ k) :
    Safe k (threeCalls H r k' o) := by
  unfold threeCalls
  refine Safe.onPick _ _ fun p => ⟨h1, fun st _ => Safe.andThen _ _ _ fun x a _ _ => ?_⟩
  refine ⟨⟨fun _ _ => hk, .inr ⟨k', rfl, hne, fun _ _ => by simp⟩⟩, fun st hst => Safe.andThen _ _ _ fun x a hx ha => ?_⟩
  obtain ⟨e, hf, rfl⟩ := get_ok hx ha
  refine Safe.onPick _ _ fun q => ⟨⟨fun _ _ => copy_good hst hk hf, .inr ⟨k', rfl, hne, fun _ _ => by simp⟩⟩,
    fun st _ => Safe.andThen _ _ _ fun x a _ _ => trivial⟩

/-- Bystanders are safe. -/
theorem safe_bystander (H : Hashes) (r : ReplicaPool S) {k : Bytes} {o : Op} (h : Bystander k o) : Safe k (replicaProg H r o) := by
  cases o with
  | get k' =>
    refine Safe.onPick _ _ fun p => ⟨⟨fun _ _ => h, ?_⟩, fun st _ => Safe.andThen _ _ _ fun x a _ _ => trivial⟩
    by_cases hk : k' = k
    · exact .inl (by rw [hk])
    · exact .inr ⟨k', rfl, hk, fun _ _ => by simp⟩
  | set i => exact safe_two H r ⟨fun _ _ => h.1, .inr ⟨_, rfl, h.2, fun _ _ => by simp⟩⟩ ⟨fun _ _ => h.1, .inr ⟨_, rfl, h.2, fun _ _ => by simp⟩⟩
  | add i => exact safe_two H r ⟨fun _ _ => h.1, .inr ⟨_, rfl, h.2, fun _ _ => by simp⟩⟩ ⟨fun _ _ => h.1, .inr ⟨_, rfl, h.2, fun _ _ => by simp⟩⟩
  | replace i => exact safe_two H r ⟨fun _ _ => h.1, .inr ⟨_, rfl, h.2, fun _ _ => by simp⟩⟩ ⟨fun _ _ => h.1, .inr ⟨_, rfl, h.2, fun _ _ => by simp⟩⟩
  | delete k' => exact safe_two H r ⟨fun _ _ => h.1, .inr ⟨_, rfl, h.2, fun _ _ => by simp⟩⟩ ⟨fun _ _ => h.1, .inr ⟨_, rfl, h.2, fun _ _ => by simp⟩⟩
  | increment k' d e => exact safe_three H r ⟨fun _ _ => ⟨h.1, h.2.1⟩, .inr ⟨_, rfl, h.2.2, fun _ _ => by simp⟩⟩ h.1 h.2.2
  | decrement k' d e => exact safe_three H r ⟨fun _ _ => ⟨h.1, h.2.1⟩, .inr ⟨_, rfl, h.2.2, fun _ _ => by simp⟩⟩ h.1 h.2.2
  | touch k' e => exact h.elim
  | getMulti ks => exact h.elim
  | flush => exact h.elim

/-! ### The invariant -/

/-- Where a counting method that has made its first step is, and the number `c` it will return. -/
inductive Phase (H : Hashes) (r : ReplicaPool S) (jobs : List Op) (k : Bytes) (m : Nat) (p q : S) (done : List Nat) (c : Nat) :
    Prog S → Prop where
  | read : Phase H r jobs k m p q done c (.call p (.get k) (andThen outItem fun item =>
      onPick (r.secondary.pick H k) fun q => .call q (.set (copyOf k item)) (andThen outDone fun _ => .ret (.ok (.num c)))))
  | write (item : Item) (hi : GoodMetaItem (copyOf k item)) (pre : List Nat) (hp : pre <+: done)
      (hc : counterOf item.value = some (counterAfter jobs k m pre)) :
      Phase H r jobs k m p q done c (.call q (.set (copyOf k item)) (andThen outDone fun _ => .ret (.ok (.num c))))
  | done : Phase H r jobs k m p q done c (.ret (.ok (.num c)))

omit [DecidableEq S] in
theorem Phase.mono {H : Hashes} {r : ReplicaPool S} {jobs : List Op} {k : Bytes} {m : Nat} {p q : S} {done done' : List Nat} {c : Nat}
    {pr : Prog S} (h : Phase H r jobs k m p q done c pr) (hd : done <+: done') : Phase H r jobs k m p q done' c pr := by
  cases h with
  | read => exact .read
  | write item hi pre hp hc => exact .write item hi pre (hp.trans hd) hc
  | done => exact .done

/-- The state of goroutine `i`. -/
def Stat (H : Hashes) (r : ReplicaPool S) (jobs : List Op) (k : Bytes) (m : Nat) (p q : S) (done : List Nat) (i : Nat) (o : Op)
    (pr : Prog S) : Prop :=
  (Bystander k o → Safe k pr)
  ∧ (Counts k o → (i ∉ done ∧ pr = replicaProg H r o)
      ∨ ∃ pre post, done = pre ++ i :: post ∧ Phase H r jobs k m p q done (counterAfter jobs k m (pre ++ [i])) pr)

omit [DecidableEq S] in
theorem Stat.mono {H : Hashes} {r : ReplicaPool S} {jobs : List Op} {k : Bytes} {m : Nat} {p q : S} {done : List Nat} {i j : Nat}
    {o : Op} {pr : Prog S} (h : Stat H r jobs k m p q done i o pr) (hj : j ≠ i) : Stat H r jobs k m p q (done ++ [j]) i o pr := by
  refine ⟨h.1, fun ho => ?_⟩
  rcases h.2 ho with ⟨h1, h2⟩ | ⟨pre, post, h1, h2⟩
  · exact .inl ⟨by simp [h1, Ne.symm hj], h2⟩
  · exact .inr ⟨pre, post ++ [j], by rw [h1]; simp, h2.mono (List.prefix_append _ _)⟩

structure SchedInv (H : Hashes) (r : ReplicaPool S) (jobs : List Op) (k : Bytes) (m : Nat) (p q : S) (x0 : Option Nat) (d0 : Option Entry)
    (T n : Nat) (done : List Nat) (y : Sys S) : Prop where
  healthy : Healthy y.world n
  prim : ∃ e, (y.world p).data k = some e ∧ counterOf e.value = some (counterAfter jobs k m done) ∧ e.expiry = x0
  time : ∀ t, x0 = some t → (y.world p).now + T < t
  sec : ∀ e, (y.world q).data k = some e → d0 = some e ∨ ∃ pre, pre <+: done ∧ counterOf e.value = some (counterAfter jobs k m pre)
  nodup : done.Nodup
  len : y.threads.length = jobs.length
  stat : ∀ i o, jobs[i]? = some o → ∃ pr, y.threads[i]? = some pr ∧ Stat H r jobs k m p q done i o pr

/-- The order after one more move. -/
def firstsStep (done : List Nat) : Move → List Nat
  | .run i => if i ∈ done then done else done ++ [i]
  | .tick _ => done

theorem firsts_eq (moves : List Move) : firsts moves = moves.foldl firstsStep [] := by
  rfl

/-- How much time a move takes. -/
def moveTime : Move → Nat
  | .tick d => d
  | .run _ => 0

theorem find_of_live {s : Store} {k : Bytes} {e : Entry} (h : s.data k = some e) (ht : ∀ t, e.expiry = some t → s.now < t) :
    s.find k = some e := by
  unfold Store.find
  rw [h]
  dsimp only
  rw [if_pos]
  unfold Entry.live
  cases hx : e.expiry with
  | none => rfl
  | some t => simpa using ht t hx

/-! ### The counter stays small -/

/-- What goroutine `i` may add. -/
def addsAt (jobs : List Op) (k : Bytes) (i : Nat) : Nat :=
  match jobs[i]? with
  | some o => adds k o
  | none => 0

theorem sum_nodup_le (f : Nat → Nat) (N : Nat) : ∀ l : List Nat, l.Nodup → (∀ i ∈ l, N ≤ i → f i = 0) →
    (l.map f).sum ≤ ((List.range N).map f).sum := by
  induction N with
  | zero =>
    intro l _ h
    have : (l.map f).sum = 0 := by
      rw [List.sum_eq_zero_iff_forall_eq_nat]
      intro x hx
      obtain ⟨i, hi, rfl⟩ := List.mem_map.1 hx
      exact h i hi (Nat.zero_le _)
    omega
  | succ N ih =>
    intro l hl h
    rw [List.range_succ, List.map_append, List.sum_append]
    by_cases hm : N ∈ l
    · have hp := List.perm_cons_erase hm
      have := (hp.map f).sum_nat
      rw [this]
      have h2 := ih (l.erase N) (hl.erase N) fun i hi hle => by
        rcases Nat.lt_or_ge N i with hlt | hge
        · exact h i (List.mem_of_mem_erase hi) hlt
        · have : i = N := by omega
          subst this
          exact absurd hi (List.Nodup.not_mem_erase hl)
      simp only [List.map_cons, List.map_nil, List.sum_cons, List.sum_nil]
      omega
    · have h2 := ih l hl fun i hi hle => by
        rcases Nat.lt_or_ge N i with hlt | hge
        · exact h i hi hlt
        · have : i = N := by omega
          subst this
          exact absurd hi hm
      omega

theorem range_addsAt (jobs : List Op) (k : Bytes) : (List.range jobs.length).map (addsAt jobs k) = jobs.map (adds k) := by
  apply List.ext_getElem (by simp)
  intro i h1 h2
  simp only [List.length_map] at h2
  simp [addsAt, h2]

theorem counterAfter_append (jobs : List Op) (k : Bytes) (m : Nat) (l l' : List Nat) :
    counterAfter jobs k m (l ++ l') = counterAfter jobs k (counterAfter jobs k m l) l' := by
  unfold counterAfter
  rw [List.foldl_append]

theorem counterAfter_le (jobs : List Op) (k : Bytes) (m : Nat) (l : List Nat) :
    counterAfter jobs k m l ≤ m + (l.map (addsAt jobs k)).sum := by
  induction l generalizing m with
  | nil => simp [counterAfter]
  | cons i l ih =>
    have : counterAfter jobs k m (i :: l) = counterAfter jobs k (counterAfter jobs k m [i]) l :=
      counterAfter_append jobs k m [i] l
    rw [this]
    have h1 : counterAfter jobs k m [i] ≤ m + addsAt jobs k i := by
      simp only [counterAfter, List.foldl_cons, List.foldl_nil, addsAt]
      cases jobs[i]? with
      | none => simp
      | some o =>
        cases o <;> simp only [effect, adds] <;> first | omega | skip
        · split <;> omega
        · split <;> omega
    have := ih (counterAfter jobs k m [i])
    simp only [List.map_cons, List.sum_cons]
    omega

theorem counterAfter_bound (jobs : List Op) (k : Bytes) (m : Nat) (l : List Nat) (hl : l.Nodup) :
    counterAfter jobs k m l ≤ m + (jobs.map (adds k)).sum := by
  have h1 := counterAfter_le jobs k m l
  have h2 := sum_nodup_le (addsAt jobs k) jobs.length l hl fun i _ hi => by
    unfold addsAt
    rw [List.getElem?_eq_none hi]
  rw [range_addsAt] at h2
  omega

/-! ### The invariant is kept -/

theorem not_both {k : Bytes} {o : Op} (h1 : Bystander k o) (h2 : Counts k o) : False := by
  cases o <;> first | exact h2.elim | exact h1.elim | exact h1.2.2 h2.1

theorem effect_bystander {k : Bytes} {o : Op} (h : Bystander k o) (n : Nat) : effect k n o = n := by
  cases o with
  | increment k' d e => simp [effect, h.2.2]
  | decrement k' d e => simp [effect, h.2.2]
  | _ => rfl

/-- A goroutine that does not count makes its first step. -/
theorem counterAfter_other {jobs : List Op} {k : Bytes} {i : Nat} (h : ∀ o, jobs[i]? = some o → Bystander k o) (m : Nat) (l : List Nat) :
    counterAfter jobs k m (l ++ [i]) = counterAfter jobs k m l := by
  rw [counterAfter_append]
  simp only [counterAfter, List.foldl_cons, List.foldl_nil]
  cases hj : jobs[i]? with
  | none => rfl
  | some o => exact effect_bystander (h o hj) _

theorem nodup_snoc {l : List Nat} {i : Nat} (h : l.Nodup) (hi : i ∉ l) : (l ++ [i]).Nodup := by
  rw [List.nodup_append]
  refine ⟨h, by simp, ?_⟩
  intro a ha b hb hab
  simp only [List.mem_singleton] at hb
  subst hb; subst hab
  exact hi ha

theorem inv_mark {H : Hashes} {r : ReplicaPool S} {jobs : List Op} {k : Bytes} {m : Nat} {p q : S} {x0 : Option Nat} {d0 : Option Entry}
    {T n : Nat} {done : List Nat} {y : Sys S} (h : SchedInv H r jobs k m p q x0 d0 T n done y) {i : Nat}
    (hi : ∀ o, jobs[i]? = some o → Bystander k o ∨ i ∈ done) :
    SchedInv H r jobs k m p q x0 d0 T n (if i ∈ done then done else done ++ [i]) y := by
  by_cases hd : i ∈ done
  · rw [if_pos hd]; exact h
  · rw [if_neg hd]
    have hb : ∀ o, jobs[i]? = some o → Bystander k o := fun o ho => (hi o ho).resolve_right hd
    refine ⟨h.healthy, ?_, h.time, ?_, nodup_snoc h.nodup hd, h.len, ?_⟩
    · rw [counterAfter_other hb]; exact h.prim
    · intro e he
      rcases h.sec e he with h' | ⟨pre, h1, h2⟩
      · exact .inl h'
      · exact .inr ⟨pre, h1.trans (List.prefix_append _ _), h2⟩
    · intro j o ho
      obtain ⟨pr, h1, h2⟩ := h.stat j o ho
      refine ⟨pr, h1, ?_⟩
      by_cases hj : i = j
      · subst hj
        exact ⟨h2.1, fun hc => (not_both (hb o ho) hc).elim⟩
      · exact h2.mono hj

theorem stat_set {H : Hashes} {r : ReplicaPool S} {jobs : List Op} {k : Bytes} {m : Nat} {p q : S} {done done' : List Nat} {threads : List (Prog S)}
    (h : ∀ i o, jobs[i]? = some o → ∃ pr, threads[i]? = some pr ∧ Stat H r jobs k m p q done i o pr) {i : Nat}
    (hd : done' = done ∨ done' = done ++ [i]) {pr' : Prog S} (hlt : i < threads.length)
    (hi : ∀ o, jobs[i]? = some o → Stat H r jobs k m p q done' i o pr') :
    ∀ j o, jobs[j]? = some o → ∃ pr, (threads.set i pr')[j]? = some pr ∧ Stat H r jobs k m p q done' j o pr := by
  intro j o ho
  by_cases hj : i = j
  · subst hj
    exact ⟨pr', by simp [hlt], hi o ho⟩
  · obtain ⟨pr, h1, h2⟩ := h j o ho
    refine ⟨pr, by rw [List.getElem?_set_ne hj]; exact h1, ?_⟩
    rcases hd with rfl | rfl
    · exact h2
    · exact h2.mono hj

theorem healthy_ge {w : World S} {n : Nat} (h : Healthy w (n + 1)) : Healthy w n := healthy_mono h (by omega)

/-- First step of a counting method. -/
theorem inv_count {H : Hashes} {r : ReplicaPool S} {jobs : List Op} {k : Bytes} {m : Nat} {p q : S} {x0 : Option Nat} {d0 : Option Entry}
    {T n : Nat} {done : List Nat} {y : Sys S} (h : SchedInv H r jobs k m p q x0 d0 T (n + 1) done y)
    (hpq : p ≠ q) (hp : r.primary.pick H k = .ok p) (hk : Key k) (hb : m + (jobs.map (adds k)).sum < 2 ^ 63)
    {i : Nat} (hd : i ∉ done) (up : Bool) (d x : Int) (hj : jobs[i]? = some (countOp up k d x)) (hd0 : 0 ≤ d) (hdr : InRange 64 d)
    (ht : y.threads[i]? = some (replicaProg H r (countOp up k d x))) :
    SchedInv H r jobs k m p q x0 d0 T n (done ++ [i]) (y.step (.run i)) := by
  have hpr : replicaProg H r (countOp up k d x) = .call p (countOp up k d x) (andThen outNum fun n =>
      .call p (.get k) (andThen outItem fun item =>
        onPick (r.secondary.pick H k) fun q => .call q (.set (copyOf k item)) (andThen outDone fun _ =>
        .ret (.ok (.num n))))) := by
    cases up with
    | true =>
      show threeCalls H r k (.increment k d x) = _
      unfold threeCalls
      rw [hp]; rfl
    | false =>
      show threeCalls H r k (.decrement k d x) = _
      unfold threeCalls
      rw [hp]; rfl
  rw [hpr] at ht
  obtain ⟨e, he, hce, hx⟩ := h.prim
  have hf : (y.world p).find k = some e := find_of_live he fun t ht => by
    have := h.time t (hx ▸ ht); omega
  have hnd := nodup_snoc h.nodup hd
  have hbound := counterAfter_bound jobs k m (done ++ [i]) hnd
  have hcnt : counterAfter jobs k m (done ++ [i]) = count up (counterAfter jobs k m done) d.toNat := by
    have hlt := counterAfter_bound jobs k m (done ++ [i]) hnd
    rw [counterAfter_append] at hlt ⊢
    simp only [counterAfter, List.foldl_cons, List.foldl_nil, hj] at hlt ⊢
    generalize List.foldl _ m done = c at *
    cases up with
    | true =>
      simp only [countOp, if_true, effect] at hlt ⊢
      simp only [count, if_true]
      rw [Nat.mod_eq_of_lt (by omega)]
    | false =>
      simp [countOp, effect, count]
  have hgood := goodMeta_count (y.world p) up k d x hk hdr
  have hstep := callStep_meta p (countOp up k d x) y.world (h.healthy.1 p).1 hgood
  rw [metaApi_count] at hstep
  have hap : arithApi (y.world p) up k d = (.ok (.num (counterAfter jobs k m (done ++ [i]))),
      (y.world p).put k (padTo e.value.length (natDec (counterAfter jobs k m (done ++ [i])))) e.flags e.expiry) := by
    unfold arithApi
    rw [if_neg (by omega)]
    unfold Store.arith
    rw [hf]
    dsimp only
    rw [hce]
    dsimp only
    rw [← hcnt]
    unfold counted
    dsimp only
    rw [if_pos (by omega)]
  have hheal := healthy_call h.healthy p (countOp up k d x) hgood
  rw [metaApi_count, hap] at hheal
  rw [hap] at hstep
  dsimp only at hheal hstep
  have hys : y.step (.run i) = Sys.mk (callStep p (countOp up k d x) y.world).2 (y.threads.set i
      (andThen outNum (fun n => .call p (.get k) (andThen outItem fun item =>
        onPick (r.secondary.pick H k) fun q => .call q (.set (copyOf k item)) (andThen outDone fun _ =>
        .ret (.ok (.num n))))) (callStep p (countOp up k d x) y.world).1)) := by
    simp only [Sys.step, ht]
  have hlen : i < y.threads.length := (List.getElem?_eq_some_iff.1 ht).1
  rw [hys, hstep]
  refine ⟨hheal, ?_, ?_, ?_, hnd, by simp [h.len], ?_⟩
  · dsimp only
    rw [update_same]
    refine ⟨⟨padTo e.value.length (natDec (counterAfter jobs k m (done ++ [i]))), e.flags, e.expiry, (y.world p).nextCas⟩,
      by simp [Store.put, Store.write], ?_, hx⟩
    exact counterOf_padTo _ _ (by omega)
  · dsimp only
    rw [update_same]
    exact h.time
  · dsimp only
    rw [update_other _ _ (Ne.symm hpq)]
    intro e' he'
    rcases h.sec e' he' with h' | ⟨pre, h1, h2⟩
    · exact .inl h'
    · exact .inr ⟨pre, h1.trans (List.prefix_append _ _), h2⟩
  · refine stat_set h.stat (.inr rfl) hlen fun o ho => ?_
    rw [hj] at ho
    cases ho
    refine ⟨fun hby => ?_, fun _ => .inr ⟨done, [], rfl, .read⟩⟩
    refine (not_both hby ?_).elim
    cases up
    · exact ⟨rfl, hd0, hdr⟩
    · exact ⟨rfl, hd0, hdr⟩

/-- A step of a method that does not change `k` (any more) on the primary or the secondary. -/
theorem inv_safe {H : Hashes} {r : ReplicaPool S} {jobs : List Op} {k : Bytes} {m : Nat} {p q : S} {x0 : Option Nat} {d0 : Option Entry}
    {T n : Nat} {done : List Nat} {y : Sys S} (h : SchedInv H r jobs k m p q x0 d0 T (n + 1) done y)
    {i : Nat} {s : S} {o : Op} {f : Res Out → Prog S} (ht : y.threads[i]? = some (.call s o f))
    (ho : SafeOp k o) (hi : ∀ o', jobs[i]? = some o' → Stat H r jobs k m p q done i o' (f (metaApi (y.world s) o).1)) :
    SchedInv H r jobs k m p q x0 d0 T n done (y.step (.run i)) := by
  have hgood := ho.1 (y.world s) (h.healthy.1 s).1
  have hstep := callStep_meta s o y.world (h.healthy.1 s).1 hgood
  have hheal := healthy_call h.healthy s o hgood
  have hys : y.step (.run i) = { world := (callStep s o y.world).2, threads := y.threads.set i (f (callStep s o y.world).1) } := by
    simp only [Sys.step, ht]
  have hlen : i < y.threads.length := (List.getElem?_eq_some_iff.1 ht).1
  have hdata : ∀ z, (World.update y.world s (metaApi (y.world s) o).2 z).data k = (y.world z).data k := by
    intro z
    by_cases hz : z = s
    · subst hz; rw [update_same, ho.data]
    · rw [update_other _ _ hz]
  have hnow : ∀ z, (World.update y.world s (metaApi (y.world s) o).2 z).now = (y.world z).now := by
    intro z
    by_cases hz : z = s
    · subst hz; rw [update_same, metaApi_now]
    · rw [update_other _ _ hz]
  rw [hys, hstep]
  refine ⟨hheal, ?_, ?_, ?_, h.nodup, by simp [h.len], stat_set h.stat (.inl rfl) hlen hi⟩
  · dsimp only; rw [hdata]; exact h.prim
  · dsimp only; rw [hnow]; exact h.time
  · dsimp only; rw [hdata]; exact h.sec

/-- The last step of a counting method: the copy on the secondary. -/
theorem inv_write {H : Hashes} {r : ReplicaPool S} {jobs : List Op} {k : Bytes} {m : Nat} {p q : S} {x0 : Option Nat} {d0 : Option Entry}
    {T n : Nat} {done : List Nat} {y : Sys S} (h : SchedInv H r jobs k m p q x0 d0 T (n + 1) done y)
    (hpq : p ≠ q) {i : Nat} {item : Item} {f : Res Out → Prog S} (ht : y.threads[i]? = some (.call q (.set (copyOf k item)) f))
    (hi : GoodMetaItem (copyOf k item)) {pre : List Nat} (hpre : pre <+: done)
    (hc : counterOf item.value = some (counterAfter jobs k m pre))
    (hs : ∀ o', jobs[i]? = some o' → Stat H r jobs k m p q done i o' (f (.ok .done))) :
    SchedInv H r jobs k m p q x0 d0 T n done (y.step (.run i)) := by
  have hstep := callStep_meta q (.set (copyOf k item)) y.world (h.healthy.1 q).1 hi
  have hheal := healthy_call h.healthy q (.set (copyOf k item)) hi
  have hys : y.step (.run i) = Sys.mk (callStep q (.set (copyOf k item)) y.world).2
      (y.threads.set i (f (callStep q (.set (copyOf k item)) y.world).1)) := by
    simp only [Sys.step, ht]
  have hlen : i < y.threads.length := (List.getElem?_eq_some_iff.1 ht).1
  rw [set_plain _ _ rfl] at hstep hheal
  rw [hys, hstep]
  refine ⟨hheal, ?_, ?_, ?_, h.nodup, by simp [h.len], stat_set h.stat (.inl rfl) hlen hs⟩
  · dsimp only; rw [update_other _ _ hpq]; exact h.prim
  · dsimp only; rw [update_other _ _ hpq]; exact h.time
  · dsimp only
    rw [update_same]
    intro e he
    have he' : some (⟨item.value, metaFlagsOf (copyOf k item), expiryOf (y.world q).now (copyOf k item).expiration, (y.world q).nextCas⟩ : Entry)
        = some e := by
      simpa [Store.put, Store.write, copyOf] using he
    cases he'
    exact .inr ⟨pre, hpre, hc⟩

/-- Every step keeps the invariant. -/
theorem inv_step {H : Hashes} {name : S → Bytes} {ps qs : List S} {r : ReplicaPool S} (hr : TwoRings H name ps qs r)
    {jobs : List Op} {k : Bytes} {m : Nat} {p q : S} {x0 : Option Nat} {d0 : Option Entry}
    (hp : r.primary.pick H k = .ok p) (hq : r.secondary.pick H k = .ok q) (hk : Key k)
    (hjobs : ∀ o ∈ jobs, Bystander k o ∨ Counts k o) (hb : m + (jobs.map (adds k)).sum < 2 ^ 63)
    {T n : Nat} {done : List Nat} {y : Sys S} (mv : Move) (h : SchedInv H r jobs k m p q x0 d0 (T + moveTime mv) (n + 1) done y) :
    SchedInv H r jobs k m p q x0 d0 T n (firstsStep done mv) (y.step mv) := by
  have hpq := hr.ne hp hq
  cases mv with
  | tick d =>
    refine ⟨healthy_ge (healthy_tick h.healthy d), h.prim, ?_, h.sec, h.nodup, h.len, h.stat⟩
    intro t ht
    have := h.time t ht
    simp only [moveTime] at this
    show (y.world p).now + d + T < t
    omega
  | run i =>
    have h : SchedInv H r jobs k m p q x0 d0 T (n + 1) done y := h
    have hdown : SchedInv H r jobs k m p q x0 d0 T n done y :=
      ⟨healthy_ge h.healthy, h.prim, h.time, h.sec, h.nodup, h.len, h.stat⟩
    show SchedInv H r jobs k m p q x0 d0 T n (if i ∈ done then done else done ++ [i]) _
    cases hthr : y.threads[i]? with
    | none =>
      have hys : y.step (.run i) = y := by simp only [Sys.step, hthr]
      rw [hys]
      refine inv_mark hdown fun o ho => ?_
      obtain ⟨pr, h1, _⟩ := h.stat i o ho
      rw [hthr] at h1
      cases h1
    | some pr =>
      have hlt := (List.getElem?_eq_some_iff.1 hthr).1
      rw [h.len] at hlt
      have hjo : jobs[i]? = some jobs[i] := List.getElem?_eq_getElem hlt
      generalize jobs[i] = o at hjo
      have hmem : o ∈ jobs := List.mem_of_getElem? hjo
      obtain ⟨pr', h1, hby, hcs⟩ := h.stat i o hjo
      rw [hthr] at h1
      cases h1
      rcases hjobs o hmem with hB | hC
      · -- a bystander
        have hall : ∀ o', jobs[i]? = some o' → Bystander k o' ∨ i ∈ done := by
          intro o' ho'; rw [hjo] at ho'; cases ho'; exact .inl hB
        cases pr with
        | ret v =>
          have hys : y.step (.run i) = y := by simp only [Sys.step, hthr]
          rw [hys]
          exact inv_mark hdown hall
        | call s op f =>
          obtain ⟨hso, hsf⟩ := hby hB
          refine inv_mark (inv_safe h hthr hso fun o' ho' => ?_) hall
          rw [hjo] at ho'; cases ho'
          exact ⟨fun _ => hsf _ (h.healthy.1 s).1, fun hc => (not_both hB hc).elim⟩
      · rcases hcs hC with ⟨hnd, rfl⟩ | ⟨pre, post, hdone, hph⟩
        · rw [if_neg hnd]
          cases o with
          | increment k' d x =>
            obtain ⟨rfl, h0, hr64⟩ := hC
            exact inv_count h hpq hp hk hb hnd true d x hjo h0 hr64 hthr
          | decrement k' d x =>
            obtain ⟨rfl, h0, hr64⟩ := hC
            exact inv_count h hpq hp hk hb hnd false d x hjo h0 hr64 hthr
          | _ => exact hC.elim
        · have hin : i ∈ done := by rw [hdone]; simp
          rw [if_pos hin]
          have wrap : ∀ pr', Phase H r jobs k m p q done (counterAfter jobs k m (pre ++ [i])) pr' →
              ∀ o', jobs[i]? = some o' → Stat H r jobs k m p q done i o' pr' := by
            intro pr' hph' o' ho'
            rw [hjo] at ho'; cases ho'
            exact ⟨fun hB => (not_both hB hC).elim, fun _ => .inr ⟨pre, post, hdone, hph'⟩⟩
          cases hph with
          | done =>
            have hys : y.step (.run i) = y := by simp only [Sys.step, hthr]
            rw [hys]
            exact hdown
          | read =>
            refine inv_safe h hthr ⟨fun _ _ => hk, .inl rfl⟩ (wrap _ ?_)
            obtain ⟨e, he, hce, hx⟩ := h.prim
            have hf : (y.world p).find k = some e := find_of_live he fun t ht => by
              have := h.time t (hx ▸ ht); omega
            have hg : (metaApi (y.world p) (.get k)).1 = .ok (.item (metaItem (y.world p).now k e)) := by
              simp only [metaApi, hf]
            rw [hg, hq]
            exact .write _ (copy_good (h.healthy.1 p).1 hk hf) done (List.prefix_refl _) hce
          | write item hi pre' hp' hc =>
            exact inv_write h hpq hthr hi hp' hc (wrap _ .done)

/-- Nothing has happened yet. -/
theorem inv_start {H : Hashes} {r : ReplicaPool S} {w : World S} {jobs : List Op} {k : Bytes} {m : Nat} {p q : S} {e : Entry}
    {T n : Nat} (hw : Healthy w n) (he : (w p).find k = some e) (hm : counterOf e.value = some m)
    (ht : ∀ t, e.expiry = some t → (w p).now + T < t) :
    SchedInv H r jobs k m p q e.expiry ((w q).data k) T n [] (Sys.start H r w jobs) := by
  refine ⟨hw, ⟨e, find_data he, hm, rfl⟩, ht, fun e' he' => .inl he', List.nodup_nil, by simp [Sys.start], ?_⟩
  intro i o ho
  refine ⟨replicaProg H r o, by simp [Sys.start, ho], fun hB => safe_bystander H r hB, fun _ => .inl ⟨by simp, rfl⟩⟩

theorem inv_run {H : Hashes} {name : S → Bytes} {ps qs : List S} {r : ReplicaPool S} (hr : TwoRings H name ps qs r)
    {jobs : List Op} {k : Bytes} {m : Nat} {p q : S} {x0 : Option Nat} {d0 : Option Entry}
    (hp : r.primary.pick H k = .ok p) (hq : r.secondary.pick H k = .ok q) (hk : Key k)
    (hjobs : ∀ o ∈ jobs, Bystander k o ∨ Counts k o) (hb : m + (jobs.map (adds k)).sum < 2 ^ 63)
    (moves : List Move) {T n : Nat} {done : List Nat} {y : Sys S}
    (h : SchedInv H r jobs k m p q x0 d0 (T + (moves.map moveTime).sum) (n + moves.length) done y) :
    SchedInv H r jobs k m p q x0 d0 T n (moves.foldl firstsStep done) (y.run moves) := by
  induction moves generalizing done y with
  | nil => exact h
  | cons mv rest ih =>
    refine ih (inv_step hr hp hq hk hjobs hb mv ?_)
    have e1 : T + (rest.map moveTime).sum + moveTime mv = T + ((mv :: rest).map moveTime).sum := by
      simp only [List.map_cons, List.sum_cons]; omega
    have e2 : n + rest.length + 1 = n + (mv :: rest).length := by simp only [List.length_cons]; omega
    rw [e1, e2]
    exact h

/-- The situation of C45: a replica pool over memcached servers; the key `k` with primary `p` and
secondary `q` holds the counter `m` on its primary and does not expire during the schedule; every
goroutine increments or decrements `k`, or does something that does not change `k`; and the counter
cannot leave the range of an int64. -/
structure CountingRun (H : Hashes) (name : S → Bytes) (ps qs : List S) (r : ReplicaPool S) (w : World S) (jobs : List Op)
    (k : Bytes) (m : Nat) (p q : S) (moves : List Move) : Prop where
  rings : TwoRings H name ps qs r
  primary : r.primary.pick H k = .ok p
  secondary : r.secondary.pick H k = .ok q
  key : Key k
  kinds : ∀ o ∈ jobs, Bystander k o ∨ Counts k o
  small : m + (jobs.map (adds k)).sum < 2 ^ 63
  healthy : Healthy w moves.length
  counter : ∃ e, (w p).find k = some e ∧ counterOf e.value = some m
    ∧ ∀ t, e.expiry = some t → (w p).now + elapsed moves < t

theorem CountingRun.inv {H : Hashes} {name : S → Bytes} {ps qs : List S} {r : ReplicaPool S} {w : World S} {jobs : List Op}
    {k : Bytes} {m : Nat} {p q : S} {moves : List Move} (c : CountingRun H name ps qs r w jobs k m p q moves) :
    ∃ x0, SchedInv H r jobs k m p q x0 ((w q).data k) 0 0 (firsts moves) ((Sys.start H r w jobs).run moves) := by
  obtain ⟨e, he, hm, ht⟩ := c.counter
  refine ⟨e.expiry, ?_⟩
  refine inv_run c.rings c.primary c.secondary c.key c.kinds c.small moves (inv_start (n := 0 + moves.length) ?_ he hm ?_)
  · rw [Nat.zero_add]; exact c.healthy
  · have : elapsed moves = (moves.map moveTime).sum := by
      rfl
    rw [Nat.zero_add, ← this]
    exact ht

/-- C45: no Increment or Decrement is lost.  In every schedule, at every moment, the primary holds
exactly the number that results from doing the methods started so far one after the other, in the
order of their first steps. -/
theorem C45_no_lost_update {H : Hashes} {name : S → Bytes} {ps qs : List S} {r : ReplicaPool S} {w : World S} {jobs : List Op}
    {k : Bytes} {m : Nat} {p q : S} {moves : List Move} (c : CountingRun H name ps qs r w jobs k m p q moves) :
    ∃ e, (((Sys.start H r w jobs).run moves).world p).find k = some e
      ∧ counterOf e.value = some (counterAfter jobs k m (firsts moves)) := by
  obtain ⟨x0, h⟩ := c.inv
  obtain ⟨e, he, hc, hx⟩ := h.prim
  exact ⟨e, find_of_live he fun t ht => by have := h.time t (hx ▸ ht); omega, hc⟩

/-- C45: each Increment or Decrement of the counter that has returned has succeeded, and returned the
number the counter has in that order right after it. -/
theorem C45_results {H : Hashes} {name : S → Bytes} {ps qs : List S} {r : ReplicaPool S} {w : World S} {jobs : List Op}
    {k : Bytes} {m : Nat} {p q : S} {moves : List Move} (c : CountingRun H name ps qs r w jobs k m p q moves)
    {i : Nat} {o : Op} (hi : jobs[i]? = some o) (ho : Counts k o) {res : Res Out}
    (hres : ((Sys.start H r w jobs).run moves).threads[i]? = some (.ret res)) :
    ∃ before after, firsts moves = before ++ i :: after
      ∧ res = .ok (.num (counterAfter jobs k m (before ++ [i]))) := by
  obtain ⟨x0, h⟩ := c.inv
  obtain ⟨pr, h1, _, h2⟩ := h.stat i o hi
  rw [hres] at h1
  cases h1
  rcases h2 ho with ⟨_, h3⟩ | ⟨pre, post, h3, h4⟩
  · exfalso
    cases o with
    | increment k' d x =>
      obtain ⟨rfl, _⟩ := ho
      have : replicaProg H r (.increment k' d x) = threeCalls H r k' (.increment k' d x) := rfl
      rw [this] at h3
      unfold threeCalls at h3
      rw [c.primary] at h3
      cases h3
    | decrement k' d x =>
      obtain ⟨rfl, _⟩ := ho
      have : replicaProg H r (.decrement k' d x) = threeCalls H r k' (.decrement k' d x) := rfl
      rw [this] at h3
      unfold threeCalls at h3
      rw [c.primary] at h3
      cases h3
    | _ => exact ho
  · refine ⟨pre, post, h3, ?_⟩
    cases h4
    rfl

/-- C45: the secondary never holds a number the counter did not have (or else it still holds what it
held at first). -/
theorem C45_secondary_not_invented {H : Hashes} {name : S → Bytes} {ps qs : List S} {r : ReplicaPool S} {w : World S} {jobs : List Op}
    {k : Bytes} {m : Nat} {p q : S} {moves : List Move} (c : CountingRun H name ps qs r w jobs k m p q moves)
    {e : Entry} (he : (((Sys.start H r w jobs).run moves).world q).find k = some e) :
    (w q).data k = some e ∨ ∃ before, before <+: firsts moves ∧ counterOf e.value = some (counterAfter jobs k m before) := by
  obtain ⟨x0, h⟩ := c.inv
  exact h.sec e (find_data he)

theorem counterAfter_mono {jobs : List Op} {k : Bytes} (hinc : ∀ k' d x, Op.decrement k' d x ∈ jobs → k' ≠ k) (m : Nat) (l : List Nat) :
    m ≤ counterAfter jobs k m l := by
  induction l generalizing m with
  | nil => exact Nat.le_refl _
  | cons i l ih =>
    have : counterAfter jobs k m (i :: l) = counterAfter jobs k (counterAfter jobs k m [i]) l :=
      counterAfter_append jobs k m [i] l
    rw [this]
    refine Nat.le_trans ?_ (ih _)
    simp only [counterAfter, List.foldl_cons, List.foldl_nil]
    cases hj : jobs[i]? with
    | none => exact Nat.le_refl _
    | some o =>
      cases o with
      | increment k' d x => simp only [effect]; split <;> omega
      | decrement k' d x =>
        simp only [effect]
        rw [if_neg (hinc k' d x (List.mem_of_getElem? hj))]
        exact Nat.le_refl _
      | _ => exact Nat.le_refl _

/-- C45: concurrent Increments by positive amounts never return the same number twice (if nobody
decrements), so the pool can hand out unique numbers. -/
theorem C45_unique_numbers {H : Hashes} {name : S → Bytes} {ps qs : List S} {r : ReplicaPool S} {w : World S} {jobs : List Op}
    {k : Bytes} {m : Nat} {p q : S} {moves : List Move} (c : CountingRun H name ps qs r w jobs k m p q moves)
    (hinc : ∀ k' d x, Op.decrement k' d x ∈ jobs → k' ≠ k)
    {i j : Nat} (hij : i ≠ j) {d1 d2 x1 x2 : Int} (hi : jobs[i]? = some (.increment k d1 x1)) (hj : jobs[j]? = some (.increment k d2 x2))
    (h1 : 0 < d1) (h2 : 0 < d2) {r1 r2 : Res Out}
    (e1 : ((Sys.start H r w jobs).run moves).threads[i]? = some (.ret r1))
    (e2 : ((Sys.start H r w jobs).run moves).threads[j]? = some (.ret r2)) : r1 ≠ r2 := by
  have hci : Counts k (.increment k d1 x1) := by
    rcases c.kinds _ (List.mem_of_getElem? hi) with h | h
    · exact (h.2.2 rfl).elim
    · exact h
  have hcj : Counts k (.increment k d2 x2) := by
    rcases c.kinds _ (List.mem_of_getElem? hj) with h | h
    · exact (h.2.2 rfl).elim
    · exact h
  -- the later of the two returns the larger number
  have key : ∀ {a b : Nat} {d : Int} {x : Int} (pre post pre' post' : List Nat), 0 < d → jobs[b]? = some (.increment k d x) →
      firsts moves = pre ++ a :: post → firsts moves = pre' ++ b :: post' → pre.length < pre'.length →
      counterAfter jobs k m (pre ++ [a]) < counterAfter jobs k m (pre' ++ [b]) := by
    intro a b d x pre post pre' post' hd hb ha hb' hlen
    have hp1 : pre ++ [a] <+: firsts moves := ⟨post, by rw [ha]; simp⟩
    have hp2 : pre' <+: firsts moves := ⟨b :: post', by rw [hb']⟩
    have hp3 : pre ++ [a] <+: pre' := List.prefix_of_prefix_length_le hp1 hp2 (by simp; omega)
    obtain ⟨mid, hmid⟩ := hp3
    rw [counterAfter_append jobs k m pre' [b], ← hmid, counterAfter_append jobs k m (pre ++ [a]) mid]
    have := counterAfter_mono hinc (counterAfter jobs k m (pre ++ [a])) mid
    generalize counterAfter jobs k (counterAfter jobs k m (pre ++ [a])) mid = z at *
    simp only [counterAfter, List.foldl_cons, List.foldl_nil, hb, effect, if_true] at this ⊢
    omega
  obtain ⟨b1, a1, f1, rfl⟩ := C45_results c hi hci e1
  obtain ⟨b2, a2, f2, rfl⟩ := C45_results c hj hcj e2
  intro heq
  have heq' : counterAfter jobs k m (b1 ++ [i]) = counterAfter jobs k m (b2 ++ [j]) := by
    simp only [Res.ok.injEq, Out.num.injEq] at heq
    omega
  rcases Nat.lt_trichotomy b1.length b2.length with hlt | heqn | hlt
  · have := key b1 a1 b2 a2 h2 hj f1 f2 hlt; omega
  · have := f1.symm.trans f2
    have := (List.append_inj this heqn).2
    simp only [List.cons.injEq] at this
    exact hij this.1
  · have := key b2 a2 b1 a1 h1 hi f2 f1 hlt; omega

/-! ### The secondary can be left behind -/

theorem step_call {y : Sys S} {i : Nat} {s : S} {o : Op} {f : Res Out → Prog S} (ht : y.threads[i]? = some (.call s o f))
    (hs : GoodMetaStore (y.world s)) (ho : GoodMetaOp (y.world s) o) :
    y.step (.run i) = ⟨World.update y.world s (metaApi (y.world s) o).2, y.threads.set i (f (metaApi (y.world s) o).1)⟩ := by
  simp only [Sys.step, ht, callStep_meta s o y.world hs ho]

/-- About to read the counter. -/
def readP (p q : S) (k : Bytes) (n : Int) : Prog S :=
  .call p (.get k) (andThen outItem fun item =>
      .call q (.set (copyOf k item)) (andThen outDone fun _ => .ret (.ok (.num n))))

/-- About to write the copy. -/
def writeP (q : S) (k : Bytes) (n : Int) (item : Item) : Prog S :=
  .call q (.set (copyOf k item)) (andThen outDone fun _ => .ret (.ok (.num n)))

omit [DecidableEq S] in
theorem prog_increment {H : Hashes} {r : ReplicaPool S} {k : Bytes} {p q : S} (hp : r.primary.pick H k = .ok p)
    (hq : r.secondary.pick H k = .ok q) (d x : Int) :
    replicaProg H r (.increment k d x) = .call p (.increment k d x) (andThen outNum (readP p q k)) := by
  show threeCalls H r k (.increment k d x) = _
  unfold threeCalls readP
  rw [hp, hq]
  rfl

/-- The store after an increment of a counter. -/
theorem increment_store {s : Store} {k : Bytes} {e : Entry} {m : Nat} {d : Int} (x : Int) (hf : s.find k = some e)
    (hm : counterOf e.value = some m) (hd : 0 ≤ d) (hlt : m + d.toNat < 2 ^ 63) :
    metaApi s (.increment k d x) = (.ok (.num ((m + d.toNat : Nat))),
      s.put k (padTo e.value.length (natDec (m + d.toNat))) e.flags e.expiry) := by
  simp only [metaApi, arithApi, if_neg (show ¬ d < 0 by omega), Store.arith, hf, hm, count, if_true]
  rw [Nat.mod_eq_of_lt (by omega)]
  simp [counted, hlt]

theorem find_put_live {s : Store} {k : Bytes} {e : Entry} (hf : s.find k = some e) (v : Bytes) :
    (s.put k v e.flags e.expiry).find k = some ⟨v, e.flags, e.expiry, s.nextCas⟩ := by
  rw [find_put]
  have : Entry.live ⟨v, e.flags, e.expiry, s.nextCas⟩ s.now = e.live s.now := rfl
  rw [this, find_live hf, if_pos rfl]

theorem step_inc {w : World S} {ts : List (Prog S)} {i : Nat} {p q : S} {k : Bytes} {d x : Int} {n : Nat}
    (ht : ts[i]? = some (.call p (.increment k d x) (andThen outNum (readP p q k))))
    (hw : Healthy w (n + 1)) (hk : Key k) (hr : InRange 64 d) {e : Entry} {m : Nat} (hf : (w p).find k = some e)
    (hm : counterOf e.value = some m) (hd : 0 ≤ d) (hlt : m + d.toNat < 2 ^ 63) :
    ∃ w', (Sys.mk w ts).step (.run i) = ⟨w', ts.set i (readP p q k ((m + d.toNat : Nat)))⟩ ∧ Healthy w' n
      ∧ (∀ s, s ≠ p → w' s = w s)
      ∧ ∃ e', (w' p).find k = some e' ∧ counterOf e'.value = some (m + d.toNat) ∧ e'.expiry = e.expiry ∧ (w' p).now = (w p).now := by
  have g : GoodMetaOp (w p) (.increment k d x) := ⟨hk, hr⟩
  have hh := healthy_call hw p _ g
  have hs := step_call (y := ⟨w, ts⟩) ht (hw.1 p).1 g
  rw [increment_store x hf hm hd hlt] at hh hs
  refine ⟨_, hs, hh, fun s hs => update_other _ _ hs, ?_⟩
  rw [update_same]
  exact ⟨_, find_put_live hf _, counterOf_padTo _ _ (by omega), rfl, rfl⟩

theorem step_read {w : World S} {ts : List (Prog S)} {i : Nat} {p q : S} {k : Bytes} {c : Int} {n : Nat}
    (ht : ts[i]? = some (readP p q k c)) (hw : Healthy w (n + 1)) (hk : Key k) {e : Entry} (hf : (w p).find k = some e) :
    (Sys.mk w ts).step (.run i) = ⟨w, ts.set i (writeP q k c (metaItem (w p).now k e))⟩ ∧ Healthy w n
      ∧ GoodMetaItem (copyOf k (metaItem (w p).now k e)) := by
  have hs := step_call (y := ⟨w, ts⟩) (i := i) ht (hw.1 p).1 (show GoodMetaOp (w p) (.get k) from hk)
  have hget : metaApi (w p) (.get k) = (.ok (.item (metaItem (w p).now k e)), w p) := by simp only [metaApi, hf]
  rw [hget] at hs
  simp only [update_id] at hs
  exact ⟨hs, healthy_ge hw, copy_good (hw.1 p).1 hk hf⟩

theorem step_write {w : World S} {ts : List (Prog S)} {i : Nat} {q : S} {k : Bytes} {c : Int} {n : Nat} {item : Item}
    (ht : ts[i]? = some (writeP q k c item)) (hw : Healthy w (n + 1)) (hi : GoodMetaItem (copyOf k item)) :
    ∃ w', (Sys.mk w ts).step (.run i) = ⟨w', ts.set i (.ret (.ok (.num c)))⟩ ∧ Healthy w' n ∧ (∀ s, s ≠ q → w' s = w s)
      ∧ (w' q) = (w q).put k item.value (metaFlagsOf (copyOf k item)) (expiryOf (w q).now item.expiration) := by
  have hh := healthy_call hw q (.set (copyOf k item)) hi
  have hs := step_call (y := ⟨w, ts⟩) (i := i) ht (hw.1 q).1 (show GoodMetaOp (w q) (.set (copyOf k item)) from hi)
  rw [set_plain _ _ rfl] at hh hs
  exact ⟨_, hs, hh, fun s hs => update_other _ _ hs, by rw [update_same]; rfl⟩

/-- C45: two goroutines increment a counter (that expires within 30 days).  The first increments and
reads; the second does its whole Increment; then the first writes its copy.  Both calls succeed, the
primary has both increments, the secondary only the first. -/
theorem C45_secondary_stale {H : Hashes} {name : S → Bytes} {ps qs : List S} {r : ReplicaPool S} (hr : TwoRings H name ps qs r)
    {w : World S} {k : Bytes} {p q : S} (hp : r.primary.pick H k = .ok p) (hq : r.secondary.pick H k = .ok q) (hk : Key k)
    (hw : Healthy w 6) {e : Entry} {m t : Nat} (hf : (w p).find k = some e) (hm : counterOf e.value = some m)
    (hx : e.expiry = some t) (ht : t ≤ (w p).now + maxDelta) (d1 d2 x1 x2 : Int) (h1 : 0 < d1) (h2 : 0 < d2)
    (hr1 : InRange 64 d1) (hr2 : InRange 64 d2) (hb : m + d1.toNat + d2.toNat < 2 ^ 63) :
    ∃ y, (Sys.start H r w [.increment k d1 x1, .increment k d2 x2]).run
        [.run 0, .run 0, .run 1, .run 1, .run 1, .run 0] = y
      ∧ (y.threads = [.ret (.ok (.num ((m + d1.toNat : Nat)))), .ret (.ok (.num ((m + d1.toNat + d2.toNat : Nat))))])
      ∧ (∃ ep, (y.world p).find k = some ep ∧ counterOf ep.value = some (m + d1.toNat + d2.toNat))
      ∧ ∃ eq, (y.world q).find k = some eq ∧ counterOf eq.value = some (m + d1.toNat) := by
  have hpq := hr.ne hp hq
  have hlive : (w p).now < t := by
    have := find_live hf
    unfold Entry.live at this
    simpa [hx] using this
  refine ⟨_, rfl, ?_⟩
  unfold Sys.start Sys.run
  simp only [List.map_cons, List.map_nil, List.foldl_cons, List.foldl_nil]
  rw [prog_increment hp hq, prog_increment hp hq]
  obtain ⟨w1, s1, hw1, o1, e1, f1, c1, x1', n1⟩ := step_inc (i := 0) (ts := [_, _]) rfl hw hk hr1 hf hm (Int.le_of_lt h1) (by omega)
  rw [s1]
  clear s1
  obtain ⟨s2, hw2, g2⟩ := step_read (i := 0) (ts := [readP p q k ((m + d1.toNat : Nat)), .call p (.increment k d2 x2) (andThen outNum (readP p q k))]) rfl hw1 hk f1
  rw [show List.set [Prog.call p (.increment k d1 x1) (andThen outNum (readP p q k)), Prog.call p (.increment k d2 x2) (andThen outNum (readP p q k))]
    0 (readP p q k ((m + d1.toNat : Nat))) = [readP p q k ((m + d1.toNat : Nat)), .call p (.increment k d2 x2) (andThen outNum (readP p q k))] from rfl, s2]
  clear s2
  obtain ⟨w3, s3, hw3, o3, e3, f3, c3, x3, n3⟩ := step_inc (i := 1) (q := q)
    (ts := [writeP q k ((m + d1.toNat : Nat)) (metaItem (w1 p).now k e1), .call p (.increment k d2 x2) (andThen outNum (readP p q k))])
    rfl hw2 hk hr2 f1 c1 (Int.le_of_lt h2) hb
  rw [show List.set [readP p q k ((m + d1.toNat : Nat)), .call p (.increment k d2 x2) (andThen outNum (readP p q k))]
    0 (writeP q k ((m + d1.toNat : Nat)) (metaItem (w1 p).now k e1))
      = [writeP q k ((m + d1.toNat : Nat)) (metaItem (w1 p).now k e1), .call p (.increment k d2 x2) (andThen outNum (readP p q k))] from rfl, s3]
  clear s3
  obtain ⟨s4, hw4, g4⟩ := step_read (i := 1) (q := q) (c := ((m + d1.toNat + d2.toNat : Nat)))
    (ts := [writeP q k ((m + d1.toNat : Nat)) (metaItem (w1 p).now k e1), readP p q k ((m + d1.toNat + d2.toNat : Nat))]) rfl hw3 hk f3
  rw [show List.set [writeP q k ((m + d1.toNat : Nat)) (metaItem (w1 p).now k e1), .call p (.increment k d2 x2) (andThen outNum (readP p q k))]
    1 (readP p q k ((m + d1.toNat + d2.toNat : Nat)))
      = [writeP q k ((m + d1.toNat : Nat)) (metaItem (w1 p).now k e1), readP p q k ((m + d1.toNat + d2.toNat : Nat))] from rfl, s4]
  clear s4
  obtain ⟨w5, s5, hw5, o5, q5⟩ := step_write (i := 1) (q := q) (c := ((m + d1.toNat + d2.toNat : Nat)))
    (ts := [writeP q k ((m + d1.toNat : Nat)) (metaItem (w1 p).now k e1), writeP q k ((m + d1.toNat + d2.toNat : Nat)) (metaItem (w3 p).now k e3)]) rfl hw4 g4
  rw [show List.set [writeP q k ((m + d1.toNat : Nat)) (metaItem (w1 p).now k e1), readP p q k ((m + d1.toNat + d2.toNat : Nat))]
    1 (writeP q k ((m + d1.toNat + d2.toNat : Nat)) (metaItem (w3 p).now k e3))
      = [writeP q k ((m + d1.toNat : Nat)) (metaItem (w1 p).now k e1), writeP q k ((m + d1.toNat + d2.toNat : Nat)) (metaItem (w3 p).now k e3)] from rfl, s5]
  clear s5
  obtain ⟨w6, s6, hw6, o6, q6⟩ := step_write (i := 0) (q := q) (c := ((m + d1.toNat : Nat)))
    (ts := [writeP q k ((m + d1.toNat : Nat)) (metaItem (w1 p).now k e1), .ret (.ok (.num ((m + d1.toNat + d2.toNat : Nat))))]) rfl hw5 g2
  rw [show List.set [writeP q k ((m + d1.toNat : Nat)) (metaItem (w1 p).now k e1), writeP q k ((m + d1.toNat + d2.toNat : Nat)) (metaItem (w3 p).now k e3)]
    1 (.ret (.ok (.num ((m + d1.toNat + d2.toNat : Nat)))))
      = [writeP q k ((m + d1.toNat : Nat)) (metaItem (w1 p).now k e1), .ret (.ok (.num ((m + d1.toNat + d2.toNat : Nat))))] from rfl, s6]
  clear s6
  refine ⟨rfl, ⟨e3, ?_, c3⟩, ?_⟩
  · show (w6 p).find k = _
    rw [o6 p hpq, o5 p hpq]
    exact f3
  · have hnq : (w5 q).now = (w p).now := by rw [hw5.2 q p, o5 p hpq, n3, n1]
    refine ⟨⟨e1.value, metaFlagsOf (copyOf k (metaItem (w1 p).now k e1)), some t, (w5 q).nextCas⟩, ?_, c1⟩
    show (w6 q).find k = _
    have hexp : expiryOf (w5 q).now (metaItem (w1 p).now k e1).expiration = some t := by
      rw [hnq]
      show expiryOf (w p).now (lifetime (w1 p).now e1) = _
      unfold lifetime expiryOf
      simp only [x1', hx, n1]
      rw [if_neg (by omega), if_neg (by omega), if_pos (by omega)]
      congr 1
      omega
    rw [q6, hexp, find_put, if_pos]
    · rfl
    · unfold Entry.live
      simp only [hnq]
      simpa using hlive

end Props
end Verif
