import Verif.Cluster.Replica
import Verif.Spec.Calls
import Verif.Props.Ring
/-!
C41: which servers a `ReplicaPool` calls, in which order, and whose error it returns — for
arbitrary servers (`E`), whatever their calls do.  `logged E` is the same environment with a
log of all calls made on servers.
-/

namespace Verif
namespace Props
open Pool Spec

variable {S W : Type}

/-- The outcome of calling `first` on the primary `p` and then, only if it succeeds, `second`
on the secondary `q`: `op1`, `op2` are what the log shows. -/
def PrimaryThenSecondary {α β : Type} (p q : S) (op1 op2 : Op) (first : Act W α) (second : Act W β)
    (w : W) (log : List (S × Op)) (out : Res β × (W × List (S × Op))) : Prop :=
  (∀ a w1, first w = (.ok a, w1) →
    out = ((second w1).1, ((second w1).2, log ++ [(p, op1), (q, op2)]))) ∧
  (∀ e w1, first w = (.err e, w1) → out = (.err e, (w1, log ++ [(p, op1)])))

theorem onPicked_logged {α : Type} (E : Env S W) (r : Ring S) (k : Bytes) (s : S)
    (h : r.pick E.H k = .ok s) (op : ServerOps (W × List (S × Op)) → Act (W × List (S × Op)) α) :
    onPicked (logged E) r k op = op ((logged E).ops s) := by
  unfold onPicked
  have : (logged E).H = E.H := rfl
  rw [this, h]
  rfl

theorem two_calls {α β : Type} (p q : S) (o1 o2 : Op) (m1 : Act W α) (m2 : Act W β) (w : W)
    (log : List (S × Op)) :
    PrimaryThenSecondary p q o1 o2 m1 m2 w log ((do let _ ← noted p o1 m1; noted q o2 m2) (w, log)) := by
  constructor
  · intro a w1 h
    have : noted p o1 m1 (w, log) = (.ok a, (w1, log ++ [(p, o1)])) := by simp [noted, h]
    rw [Act.bind_of_ok this]
    simp [noted]
  · intro e w1 h
    have : noted p o1 m1 (w, log) = (.err e, (w1, log ++ [(p, o1)])) := by simp [noted, h]
    rw [Act.bind_of_err this]

variable (E : Env S W) (r : Cluster.ReplicaPool S)

/-- C41: `Set`. -/
theorem C41_set (item : Item) (p q : S) (hp : r.primary.pick E.H item.key = .ok p)
    (hq : r.secondary.pick E.H item.key = .ok q) (w : W) (log : List (S × Op)) :
    PrimaryThenSecondary p q (.set item) (.set item) ((E.ops p).set item) ((E.ops q).set item) w log
      (Cluster.set (logged E) r item (w, log)) := by
  unfold Cluster.set
  rw [onPicked_logged E _ _ p hp, onPicked_logged E _ _ q hq]
  exact two_calls p q (.set item) (.set item) ((E.ops p).set item) ((E.ops q).set item) w log

/-- C41: `Add` is an `Add` on the primary and a `Set` on the secondary. -/
theorem C41_add (item : Item) (p q : S) (hp : r.primary.pick E.H item.key = .ok p)
    (hq : r.secondary.pick E.H item.key = .ok q) (w : W) (log : List (S × Op)) :
    PrimaryThenSecondary p q (.add item) (.set item) ((E.ops p).add item) ((E.ops q).set item) w log
      (Cluster.add (logged E) r item (w, log)) := by
  unfold Cluster.add
  rw [onPicked_logged E _ _ p hp, onPicked_logged E _ _ q hq]
  exact two_calls p q (.add item) (.set item) ((E.ops p).add item) ((E.ops q).set item) w log

/-- C41: `Replace` is a `Replace` on the primary and a `Set` on the secondary. -/
theorem C41_replace (item : Item) (p q : S) (hp : r.primary.pick E.H item.key = .ok p)
    (hq : r.secondary.pick E.H item.key = .ok q) (w : W) (log : List (S × Op)) :
    PrimaryThenSecondary p q (.replace item) (.set item) ((E.ops p).replace item) ((E.ops q).set item) w log
      (Cluster.replace (logged E) r item (w, log)) := by
  unfold Cluster.replace
  rw [onPicked_logged E _ _ p hp, onPicked_logged E _ _ q hq]
  exact two_calls p q (.replace item) (.set item) ((E.ops p).replace item) ((E.ops q).set item) w log

/-- C41: `Delete`. -/
theorem C41_delete (key : Bytes) (p q : S) (hp : r.primary.pick E.H key = .ok p)
    (hq : r.secondary.pick E.H key = .ok q) (w : W) (log : List (S × Op)) :
    PrimaryThenSecondary p q (.delete key) (.delete key) ((E.ops p).delete key) ((E.ops q).delete key) w log
      (Cluster.delete (logged E) r key (w, log)) := by
  unfold Cluster.delete
  rw [onPicked_logged E _ _ p hp, onPicked_logged E _ _ q hq]
  exact two_calls p q (.delete key) (.delete key) ((E.ops p).delete key) ((E.ops q).delete key) w log

/-- The calls of `Increment`/`Decrement`: count on the primary, read back from the primary,
copy to the secondary; each only if the one before succeeded. -/
def CountThenCopy (E : Env S W) (p q : S) (key : Bytes) (op : Op) (first : Act W Int) (w : W) (log : List (S × Op))
    (out : Res Int × (W × List (S × Op))) : Prop :=
  (∀ e w1, first w = (.err e, w1) → out = (.err e, (w1, log ++ [(p, op)]))) ∧
  (∀ n w1 e w2, first w = (.ok n, w1) → (E.ops p).get key w1 = (.err e, w2) →
    out = (.err e, (w2, log ++ [(p, op), (p, .get key)]))) ∧
  (∀ n w1 item w2, first w = (.ok n, w1) → (E.ops p).get key w1 = (.ok item, w2) →
    let copy : Item := { key := key, value := item.value, flags := item.flags, expiration := item.expiration }
    (∀ w3, (E.ops q).set copy w2 = (.ok (), w3) →
      out = (.ok n, (w3, log ++ [(p, op), (p, .get key), (q, .set copy)]))) ∧
    (∀ e w3, (E.ops q).set copy w2 = (.err e, w3) →
      out = (.err e, (w3, log ++ [(p, op), (p, .get key), (q, .set copy)]))))

theorem count_calls (key : Bytes) (p q : S) (op : Op) (first : Act W Int) (w : W) (log : List (S × Op)) :
    CountThenCopy E p q key op first w log
      ((do
        let n ← noted p op first
        let item ← noted p (.get key) ((E.ops p).get key)
        noted q (.set (Cluster.copyOf key item)) ((E.ops q).set (Cluster.copyOf key item))
        pure n) (w, log)) := by
  refine ⟨?_, ?_, ?_⟩
  · intro e w1 h
    have h1 : noted p op first (w, log) = (.err e, (w1, log ++ [(p, op)])) := by simp [noted, h]
    rw [Act.bind_of_err h1]
  · intro n w1 e w2 h h'
    have h1 : noted p op first (w, log) = (.ok n, (w1, log ++ [(p, op)])) := by simp [noted, h]
    rw [Act.bind_of_ok h1]
    have h2 : noted p (.get key) ((E.ops p).get key) (w1, log ++ [(p, op)])
        = (.err e, (w2, log ++ [(p, op), (p, .get key)])) := by simp [noted, h']
    rw [Act.bind_of_err h2]
  · intro n w1 item w2 h h'
    have h1 : noted p op first (w, log) = (.ok n, (w1, log ++ [(p, op)])) := by simp [noted, h]
    have h2 : noted p (.get key) ((E.ops p).get key) (w1, log ++ [(p, op)])
        = (.ok item, (w2, log ++ [(p, op), (p, .get key)])) := by simp [noted, h']
    rw [Act.bind_of_ok h1, Act.bind_of_ok h2]
    refine ⟨?_, ?_⟩
    · intro w3 h''
      have h3 : noted q (.set (Cluster.copyOf key item)) ((E.ops q).set (Cluster.copyOf key item))
          (w2, log ++ [(p, op), (p, .get key)])
          = (.ok (), (w3, log ++ [(p, op), (p, .get key), (q, .set (Cluster.copyOf key item))])) := by
        have : (E.ops q).set (Cluster.copyOf key item) w2 = (.ok (), w3) := h''
        simp [noted, this]
      rw [Act.bind_of_ok h3]
      rfl
    · intro e w3 h''
      have h3 : noted q (.set (Cluster.copyOf key item)) ((E.ops q).set (Cluster.copyOf key item))
          (w2, log ++ [(p, op), (p, .get key)])
          = (.err e, (w3, log ++ [(p, op), (p, .get key), (q, .set (Cluster.copyOf key item))])) := by
        have : (E.ops q).set (Cluster.copyOf key item) w2 = (.err e, w3) := h''
        simp [noted, this]
      rw [Act.bind_of_err h3]
      rfl

/-- C41: `Increment`. -/
theorem C41_increment (key : Bytes) (delta exp : Int) (p q : S) (hp : r.primary.pick E.H key = .ok p)
    (hq : r.secondary.pick E.H key = .ok q) (w : W) (log : List (S × Op)) :
    CountThenCopy E p q key (.increment key delta exp) ((E.ops p).increment key delta exp) w log
      (Cluster.increment (logged E) r key delta exp (w, log)) := by
  have := count_calls E key p q (.increment key delta exp) ((E.ops p).increment key delta exp) w log
  unfold Cluster.increment
  have hH : (logged E).H = E.H := rfl
  rw [hH, hp]
  simp only [onPicked_logged E _ _ q hq]
  exact this

/-- C41: `Decrement`. -/
theorem C41_decrement (key : Bytes) (delta exp : Int) (p q : S) (hp : r.primary.pick E.H key = .ok p)
    (hq : r.secondary.pick E.H key = .ok q) (w : W) (log : List (S × Op)) :
    CountThenCopy E p q key (.decrement key delta exp) ((E.ops p).decrement key delta exp) w log
      (Cluster.decrement (logged E) r key delta exp (w, log)) := by
  have := count_calls E key p q (.decrement key delta exp) ((E.ops p).decrement key delta exp) w log
  unfold Cluster.decrement
  have hH : (logged E).H = E.H := rfl
  rw [hH, hp]
  simp only [onPicked_logged E _ _ q hq]
  exact this

/-- C41: `Get` calls the primary only. -/
theorem C41_get (key : Bytes) (p : S) (hp : r.primary.pick E.H key = .ok p) (w : W) (log : List (S × Op)) :
    Cluster.get (logged E) r key (w, log)
      = (((E.ops p).get key w).1, (((E.ops p).get key w).2, log ++ [(p, .get key)])) := by
  unfold Cluster.get
  rw [onPicked_logged E _ _ p hp]
  rfl

/-- C41: `GetMulti` calls only servers of the primary ring, and only `GetMulti`. -/
theorem C41_getMulti {primaries : List S} (hr : IsRing E.H E.name primaries r.primary)
    (order : List (Bytes × List Bytes) → List (Bytes × List Bytes)) (keys : List Bytes) (w : W)
    (log : List (S × Op)) :
    ∃ calls, (Cluster.getMulti (logged E) r order keys (w, log)).2.2 = log ++ calls ∧
      ∀ c ∈ calls, c.1 ∈ primaries ∧ ∃ ks, c.2 = .getMulti ks := by
  have hloop : ∀ (m : List (Bytes × List Bytes)) (acc : List Item) (w : W) (log : List (S × Op)),
      ∃ calls, (getMultiLoop (logged E) r.primary m acc (w, log)).2.2 = log ++ calls ∧
        ∀ c ∈ calls, c.1 ∈ primaries ∧ ∃ ks, c.2 = .getMulti ks := by
    intro m
    induction m with
    | nil => intro acc w log; exact ⟨[], by simp [getMultiLoop], by simp⟩
    | cons e rest ih =>
      intro acc w log
      obtain ⟨n, ks⟩ := e
      unfold getMultiLoop
      cases hf : r.primary.find (logged E).name n with
      | none => exact ⟨[], by simp, by simp⟩
      | some s =>
        have hs : s ∈ primaries := by
          unfold Ring.find at hf
          rw [hr.2] at hf
          have := List.mem_of_find?_eq_some hf
          simpa using this
        simp only
        have hn : ((logged E).ops s).getMulti ks (w, log)
            = (((E.ops s).getMulti ks w).1, (((E.ops s).getMulti ks w).2, log ++ [(s, .getMulti ks)])) := rfl
        rw [Act.bind_apply, hn]
        generalize (E.ops s).getMulti ks w = out
        obtain ⟨res, w1⟩ := out
        cases res with
        | ok items =>
          obtain ⟨calls, h1, h2⟩ := ih (acc ++ items) w1 (log ++ [(s, .getMulti ks)])
          refine ⟨(s, .getMulti ks) :: calls, by simp [h1], ?_⟩
          intro c hc
          simp only [List.mem_cons] at hc
          rcases hc with rfl | hc
          · exact ⟨hs, ks, rfl⟩
          · exact h2 c hc
        | err e => exact ⟨[(s, .getMulti ks)], rfl, by simpa using hs⟩
        | panic => exact ⟨[(s, .getMulti ks)], rfl, by simpa using hs⟩
  unfold Cluster.getMulti Pool.getMulti
  rw [Act.bind_apply]
  cases hm : keyMap (logged E) r.primary keys [] with
  | ok m => exact hloop (order m) [] w log
  | err e => exact ⟨[], by simp [Act.lift], by simp⟩
  | panic => exact ⟨[], by simp [Act.lift], by simp⟩

/-- Both picks exist whenever both rings have servers. -/
theorem C41_picks {primaries secondaries : List S} (hp : IsRing E.H E.name primaries r.primary)
    (hq : IsRing E.H E.name secondaries r.secondary) (h1 : primaries ≠ []) (h2 : secondaries ≠ [])
    (key : Bytes) : ∃ p ∈ primaries, ∃ q ∈ secondaries,
      r.primary.pick E.H key = .ok p ∧ r.secondary.pick E.H key = .ok q := by
  obtain ⟨p, hp', e1⟩ := C05_member hp h1 key
  obtain ⟨q, hq', e2⟩ := C05_member hq h2 key
  exact ⟨p, hp', q, hq', e1, e2⟩

/-- Servers that all accept everything, except that server 1 refuses. -/
def demoOps (s : Nat) : ServerOps Unit :=
  let ans : {α : Type} → α → Act Unit α := fun a w => (if s = 1 then .err .io else .ok a, w)
  { get := fun k => ans { key := k }, getMulti := fun _ => ans [], set := fun _ => ans (), add := fun _ => ans (),
    replace := fun _ => ans (), delete := fun _ => ans (), increment := fun _ _ _ => ans 5,
    decrement := fun _ _ _ => ans 5, touch := fun _ _ => ans (), flush := ans (), version := ans [],
    close := ans () }

def demoHashes : Hashes := { sha32 := fun b => b.length, crc32 := fun b => b.length }

def demoPool (p q : Nat) : Cluster.ReplicaPool Nat :=
  { primary := { nodes := [⟨p, 7⟩], servers := [p] }, secondary := { nodes := [⟨q, 7⟩], servers := [q] } }

/-- The log of a successful `Add`, and of one refused by the primary. -/
example : (Cluster.add (logged { H := demoHashes, name := natDec, ops := demoOps }) (demoPool 0 2) { key := b!"k" } ((), [])).2.2
    = [(0, .add { key := b!"k" }), (2, .set { key := b!"k" })] := by decide +kernel
example : (Cluster.add (logged { H := demoHashes, name := natDec, ops := demoOps }) (demoPool 1 2) { key := b!"k" } ((), [])).2.2
    = [(1, .add { key := b!"k" })] := by decide +kernel

end Props
end Verif
