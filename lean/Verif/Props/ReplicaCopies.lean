import Verif.Cluster.OverMc
import Verif.Spec.Replica
import Verif.Props.MetaHistory
import Verif.Props.Replica
import Verif.Props.Sync
/-!
C42, C43, C44: primary and secondary copies of a replica pool over memcached servers.
-/

namespace Verif
namespace Props
open Kv Spec Mc Pool Cluster

variable {S : Type} [DecidableEq S]

/-! ### One call on one server -/

/-- The result of a call in the type of the method. -/
def resOut {α : Type} (out : Out → Option α) : Res Out → Res α
  | .ok x => match out x with | some a => .ok a | none => .panic
  | .err e => .err e
  | .panic => .panic

theorem callOn_meta {α : Type} (s : S) (o : Op) (out : Out → Option α) (w : World S)
    (hs : GoodMetaStore (w s)) (ho : GoodMetaOp (w s) o) :
    callOn (fun _ => metaCall) s o out w
      = (resOut out (metaApi (w s) o).1, World.update w s (metaApi (w s) o).2) := by
  unfold callOn
  rw [C52_meta_call o (w s) hs ho]
  generalize metaApi (w s) o = r
  obtain ⟨r1, r2⟩ := r
  cases r1 with
  | ok x => simp only [resOut]; cases out x <;> rfl
  | err e => rfl
  | panic => rfl

theorem onPicked_meta {α : Type} (H : Hashes) (name : S → Bytes) (r : Ring S) (k : Bytes) (s : S)
    (hp : r.pick H k = .ok s) (op : ServerOps (World S) → Act (World S) α) :
    onPicked (metaEnv H name) r k op = op ((metaEnv H name).ops s) := by
  unfold onPicked
  have : (metaEnv H name).H = H := rfl
  rw [this, hp]
  rfl

theorem update_same (w : World S) (s : S) (st : Store) : World.update w s st s = st := by
  simp [World.update]

theorem update_other (w : World S) {s x : S} (st : Store) (h : x ≠ s) : World.update w s st x = w x := by
  simp [World.update, h]

/-! ### Changes of one key -/

/-- Only what is stored under `k` may differ. -/
def Touches (k : Bytes) (s s' : Store) : Prop := s'.now = s.now ∧ ∀ x, x ≠ k → s'.data x = s.data x

theorem Touches.refl (k : Bytes) (s : Store) : Touches k s s := ⟨rfl, fun _ _ => rfl⟩

theorem Touches.trans {k : Bytes} {a b c : Store} (h : Touches k a b) (h' : Touches k b c) : Touches k a c :=
  ⟨h'.1.trans h.1, fun x hx => (h'.2 x hx).trans (h.2 x hx)⟩

theorem Touches.write (k : Bytes) (s : Store) (e : Option Entry) : Touches k s (s.write k e) :=
  ⟨rfl, fun x hx => by simp [Store.write, hx]⟩

theorem Touches.put (k : Bytes) (s : Store) (v : Bytes) (f : Nat) (x : Option Nat) : Touches k s (s.put k v f x) :=
  ⟨rfl, fun x hx => by simp [Store.put, Store.write, hx]⟩

theorem Touches.store (k : Bytes) (s : Store) (m : Mode) (v : Bytes) (f : Nat) (x : Int) :
    Touches k s (s.store m k v f x).2 := by
  unfold Store.store
  cases m <;> cases s.find k <;> dsimp only <;> first | exact .put .. | exact .refl .. | skip
  split
  · exact .put ..
  · exact .refl ..

theorem Touches.delete (k : Bytes) (s : Store) : Touches k s (s.delete k).2 := by
  unfold Store.delete
  cases s.find k
  · exact .refl ..
  · exact .write ..

theorem Touches.arith (k : Bytes) (s : Store) (up : Bool) (d : Nat) : Touches k s (s.arith up k d).2 := by
  unfold Store.arith
  cases s.find k with
  | none => exact .refl ..
  | some e =>
    dsimp only
    cases counterOf e.value
    · exact .refl ..
    · exact .put ..

theorem Touches.arithApi (k : Bytes) (s : Store) (up : Bool) (d : Int) : Touches k s (arithApi s up k d).2 := by
  unfold Spec.arithApi
  split
  · exact .refl ..
  · exact .arith ..

theorem Touches.set (i : Item) (s : Store) : Touches i.key s (metaApi s (.set i)).2 := by
  simp only [metaApi]
  split <;> exact .store ..

theorem Touches.find {k x : Bytes} {s s' : Store} (h : Touches k s s') (hx : x ≠ k) : s'.find x = s.find x := by
  unfold Store.find
  rw [h.1, h.2 x hx]

theorem find_put (s : Store) (k v : Bytes) (f : Nat) (x : Option Nat) :
    (s.put k v f x).find k = if Entry.live ⟨v, f, x, s.nextCas⟩ s.now then some ⟨v, f, x, s.nextCas⟩ else none := by
  simp only [Store.find, Store.put, Store.write, if_true]
  rfl

theorem sameEntry_put {s t : Store} (hn : s.now = t.now) (k v : Bytes) (f : Nat) (x : Option Nat) :
    SameEntry ((s.put k v f x).find k) ((t.put k v f x).find k) := by
  rw [find_put, find_put, hn]
  have : Entry.live ⟨v, f, x, s.nextCas⟩ t.now = Entry.live ⟨v, f, x, t.nextCas⟩ t.now := rfl
  rw [this]
  split
  · exact ⟨rfl, rfl, rfl⟩
  · trivial

theorem set_plain (i : Item) (s : Store) (h : i.cas = 0) :
    metaApi s (.set i) = (.ok .done, s.put i.key i.value (metaFlagsOf i) (expiryOf s.now i.expiration)) := by
  simp [metaApi, h, Store.store]

theorem flags_agree {i : Item} (h : GoodMetaItem i) : flagsOf i = metaFlagsOf i := by
  unfold flagsOf metaFlagsOf flagBytes
  cases hf : i.flags with
  | none => rfl
  | some f =>
    have := (h.flags f hf).1
    simp [this, List.take_of_length_le]

/-! ### Agreement -/

omit [DecidableEq S] in
theorem _root_.Verif.Spec.TwoRings.picks {H : Hashes} {name : S → Bytes} {ps qs : List S} {r : ReplicaPool S}
    (h : TwoRings H name ps qs r) (k : Bytes) :
    ∃ p q, r.primary.pick H k = .ok p ∧ r.secondary.pick H k = .ok q := by
  obtain ⟨p, _, e1⟩ := C05_member h.primary h.some1 k
  obtain ⟨q, _, e2⟩ := C05_member h.secondary h.some2 k
  exact ⟨p, q, e1, e2⟩

omit [DecidableEq S] in
theorem _root_.Verif.Spec.TwoRings.ne {H : Hashes} {name : S → Bytes} {ps qs : List S} {r : ReplicaPool S}
    (h : TwoRings H name ps qs r) {k k' : Bytes} {p q : S} (hp : r.primary.pick H k = .ok p)
    (hq : r.secondary.pick H k' = .ok q) : p ≠ q := by
  obtain ⟨p', m1, e1⟩ := C05_member h.primary h.some1 k
  obtain ⟨q', m2, e2⟩ := C05_member h.secondary h.some2 k'
  rw [hp] at e1; rw [hq] at e2
  cases e1; cases e2
  rintro rfl
  exact h.disjoint _ m1 m2

/-- A change of one key on its primary and its secondary. -/
theorem agree_step {H : Hashes} {name : S → Bytes} {ps qs : List S} {r : ReplicaPool S}
    (hr : TwoRings H name ps qs r) {w : World S} (ha : Agree H r w) {k : Bytes} {p q : S}
    (hp : r.primary.pick H k = .ok p) (hq : r.secondary.pick H k = .ok q) {sp sq : Store}
    (h1 : Touches k (w p) sp) (h2 : Touches k (w q) sq) (hs : SameEntry (sp.find k) (sq.find k)) :
    Agree H r (World.update (World.update w p sp) q sq) := by
  intro x p' q' hp' hq'
  have hpq := hr.ne hp hq
  have n1 := hr.ne hp' hq
  have n2 := hr.ne hp hq'
  rw [update_other _ _ n1]
  by_cases hx : x = k
  · subst hx
    rw [hp] at hp'; cases hp'
    rw [hq] at hq'; cases hq'
    rw [update_same, update_same]
    exact hs
  · have e1 : (World.update w p sp p').find x = (w p').find x := by
      by_cases he : p' = p
      · subst he; rw [update_same]; exact h1.find hx
      · rw [update_other _ _ he]
    have e2 : (World.update (World.update w p sp) q sq q').find x = (w q').find x := by
      by_cases he : q' = q
      · subst he; rw [update_same]; exact h2.find hx
      · rw [update_other _ _ he, update_other _ _ (Ne.symm n2)]
    rw [e1, e2]
    exact ha x p' q' hp' hq'

theorem agree_tick {H : Hashes} {r : ReplicaPool S} {w : World S} (ha : Agree H r w) {n : Nat} (hw : Healthy w n) (d : Nat) :
    Agree H r (World.tick w d) := by
  intro k p q hp hq
  have := ha k p q hp hq
  have hn := hw.2 p q
  have key : ∀ s : Store, (s.tick d).find k = (s.find k).bind fun e => if e.live (s.now + d) then some e else none := by
    intro s
    unfold Store.find
    show (match s.data k with | some e => if e.live (s.now + d) then some e else none | none => none) = _
    cases hd : s.data k with
    | none => rfl
    | some e =>
      dsimp only
      by_cases hl : e.live s.now
      · rw [if_pos hl]; rfl
      · rw [if_neg hl]
        have : e.live (s.now + d) = false := by
          unfold Entry.live at hl ⊢
          cases hx : e.expiry with
          | none => simp [hx] at hl
          | some x => simp only [hx] at hl ⊢; simp at hl ⊢; omega
        simp [this]
  show SameEntry (((w p).tick d).find k) (((w q).tick d).find k)
  rw [key, key]
  cases h1 : (w p).find k with
  | none =>
    cases h2 : (w q).find k with
    | none => trivial
    | some e' => rw [h1, h2] at this; exact this.elim
  | some e =>
    cases h2 : (w q).find k with
    | none => rw [h1, h2] at this; exact this.elim
    | some e' =>
      rw [h1, h2] at this
      obtain ⟨a, b, c⟩ := this
      have : e.live ((w p).now + d) = e'.live ((w q).now + d) := by unfold Entry.live; rw [c, hn]
      simp only [Option.bind_some, this]
      split
      · exact ⟨a, b, c⟩
      · trivial

theorem healthy_tick {w : World S} {n : Nat} (hw : Healthy w n) (d : Nat) : Healthy (World.tick w d) n :=
  ⟨fun s => ⟨(hw.1 s).1.tick d, (hw.1 s).2⟩, fun s s' => congrArg (· + d) (hw.2 s s')⟩

/-- One server changes, using up at most one token. -/
theorem healthy_update {w : World S} {n : Nat} (hw : Healthy w (n + 1)) (s : S) (st : Store)
    (h : Next (w s) st ∧ SmallFlags st) (ht : st.now = (w s).now) : Healthy (World.update w s st) n := by
  refine ⟨fun x => ?_, fun x y => ?_⟩
  · by_cases hx : x = s
    · subst hx
      rw [update_same]
      have := (hw.1 x).2
      exact ⟨⟨h.1.1, h.2⟩, by have := h.1.2; omega⟩
    · rw [update_other _ _ hx]
      have := (hw.1 x).2
      exact ⟨(hw.1 x).1, by omega⟩
  · have e : ∀ z, (World.update w s st z).now = (w z).now := by
      intro z
      by_cases hz : z = s
      · subst hz; rw [update_same]; exact ht
      · rw [update_other _ _ hz]
    rw [e, e]
    exact hw.2 x y

theorem healthy_mono {w : World S} {m n : Nat} (hw : Healthy w m) (h : n ≤ m) : Healthy w n :=
  ⟨fun s => ⟨(hw.1 s).1, by have := (hw.1 s).2; omega⟩, hw.2⟩

theorem metaApi_now (o : Op) (s : Store) : (metaApi s o).2.now = s.now := by
  cases o with
  | get k => simp only [metaApi]; split <;> rfl
  | getMulti ks => rfl
  | set i => exact (Touches.set i s).1
  | add i => exact (Touches.store i.key s .add _ _ _).1
  | replace i => exact (Touches.store i.key s .replace _ _ _).1
  | delete k => exact (Touches.delete k s).1
  | increment k d e => exact (Touches.arithApi k s _ _).1
  | decrement k d e => exact (Touches.arithApi k s _ _).1
  | touch k e => simp only [metaApi, Store.touch]; split <;> rfl
  | flush => rfl

theorem healthy_call {w : World S} {n : Nat} (hw : Healthy w (n + 1)) (s : S) (o : Op) (ho : GoodMetaOp (w s) o) :
    Healthy (World.update w s (metaApi (w s) o).2) n :=
  healthy_update hw s _ (metaApi_next o (w s) (hw.1 s).1 ho (by have := (hw.1 s).2; omega)) (metaApi_now o (w s))

/-! ### C42 -/

/-- The call made on the secondary once `op` has succeeded on the primary: whatever was stored is
set, whatever was deleted is deleted; a Get makes none. -/
def secondOp : Op → Option Op
  | .set i => some (.set i)
  | .add i => some (.set i)
  | .replace i => some (.set i)
  | .delete k => some (.delete k)
  | _ => none

/-- `o1` on `p`; if it succeeded, `o2` on `q`. -/
def bothApi (w : World S) (p q : S) (o1 o2 : Op) : Res Out × World S :=
  match (metaApi (w p) o1).1 with
  | .ok x => (match (metaApi (w q) o2).1 with | .ok _ => .ok x | r => r,
      World.update (World.update w p (metaApi (w p) o1).2) q (metaApi (w q) o2).2)
  | r => (r, World.update w p (metaApi (w p) o1).2)

/-- What a call of a replica pool should do, on primary `p` and secondary `q`. -/
def replicaApi (w : World S) (p q : S) (op : Op) : Res Out × World S :=
  match secondOp op with
  | some o2 => bothApi w p q op o2
  | none => ((metaApi (w p) op).1, World.update w p (metaApi (w p) op).2)

/-- Operations that return no value. -/
def Mutates : Op → Prop
  | .set _ => True
  | .add _ => True
  | .replace _ => True
  | .delete _ => True
  | _ => False

theorem metaApi_done (s : Store) (o : Op) (x : Out) (h : (metaApi s o).1 = .ok x)
    (ho : Mutates o) : x = .done := by
  cases o with
  | set i => simp only [metaApi] at h; split at h <;> cases h; rfl
  | add i => simp only [metaApi] at h; split at h <;> cases h; rfl
  | replace i => simp only [metaApi] at h; split at h <;> cases h; rfl
  | delete k => simp only [metaApi] at h; cases h; rfl
  | _ => exact ho.elim

theorem metaApi_nopanic (s : Store) (o : Op) : (metaApi s o).1 ≠ .panic := by
  have hc : ∀ c, counted c ≠ .panic := by
    intro c; unfold counted; split <;> (try split) <;> simp
  cases o with
  | get k => simp only [metaApi]; split <;> simp
  | getMulti ks => simp [metaApi]
  | set i => simp only [metaApi]; split <;> simp
  | add i => simp only [metaApi]; split <;> simp
  | replace i => simp only [metaApi]; split <;> simp
  | delete k => simp [metaApi]
  | increment k d e => simp only [metaApi, arithApi]; split <;> simp [hc]
  | decrement k d e => simp only [metaApi, arithApi]; split <;> simp [hc]
  | touch k e => simp only [metaApi]; split <;> simp
  | flush => simp [metaApi]

/-- Two calls one after the other, on different servers. -/
theorem two_meta {w : World S} {p q : S} (hpq : p ≠ q) {n : Nat} (hw : Healthy w (n + 1)) (o1 o2 : Op)
    (h1 : GoodMetaOp (w p) o1) (h2 : GoodMetaOp (w q) o2)
    (k1 : Mutates o1) (k2 : Mutates o2) :
    actOut (fun _ => Out.done) (do
        callOn (fun _ => metaCall) p o1 outDone
        callOn (fun _ => metaCall) q o2 outDone) w
      = bothApi w p q o1 o2 := by
  have e1 := callOn_meta p o1 outDone w (hw.1 p).1 h1
  have hq : World.update w p (metaApi (w p) o1).2 q = w q := update_other _ _ (Ne.symm hpq)
  have e2 := callOn_meta q o2 outDone (World.update w p (metaApi (w p) o1).2) (by rw [hq]; exact (hw.1 q).1)
    (by rw [hq]; exact h2)
  rw [hq] at e2
  have d1 := metaApi_done (w p) o1
  have d2 := metaApi_done (w q) o2
  have np1 := metaApi_nopanic (w p) o1
  have np2 := metaApi_nopanic (w q) o2
  unfold actOut bothApi
  cases h3 : (metaApi (w p) o1).1 with
  | panic => exact absurd h3 np1
  | err e =>
    rw [h3] at e1
    rw [Act.bind_of_err e1]
    rfl
  | ok x =>
    have := d1 x h3 k1
    subst this
    rw [h3] at e1
    rw [Act.bind_of_ok (show _ = (Res.ok (), _) from e1), e2]
    cases h4 : (metaApi (w q) o2).1 with
    | panic => exact absurd h4 np2
    | err e => rfl
    | ok y =>
      have := d2 y h4 k2
      subst this
      rfl

/-- The calls considered here: Get, Set, Add, Replace, Delete with arguments memcached accepts. -/
def WriteOp : Op → Prop
  | .get k => Key k
  | .set i => GoodMetaItem i
  | .add i => GoodMetaItem i
  | .replace i => GoodMetaItem i
  | .delete k => Key k
  | _ => False

theorem CopyOp.write {o : Op} (h : CopyOp o) : WriteOp o := by
  cases o <;> first | exact h | exact h.1 | exact h.elim

/-- Each call of the pool over real connections does what `replicaApi` says. -/
theorem C42_call {H : Hashes} {name : S → Bytes} {ps qs : List S} {r : ReplicaPool S}
    (hr : TwoRings H name ps qs r) (order : List (Bytes × List Bytes) → List (Bytes × List Bytes))
    {w : World S} {n : Nat} (hw : Healthy w (n + 1)) (op : Op) (ho : WriteOp op) {k : Bytes} (hk : op.key? = some k)
    {p q : S} (hp : r.primary.pick H k = .ok p) (hq : r.secondary.pick H k = .ok q) :
    replicaCall H name r order w op = replicaApi w p q op := by
  have hpq := hr.ne hp hq
  cases op with
  | get k' =>
    simp only [Op.key?, Option.some.injEq] at hk; subst hk
    show actOut _ (Cluster.get (metaEnv H name) r k') w = _
    unfold Cluster.get
    rw [onPicked_meta H name r.primary k' p hp]
    show actOut _ (callOn (fun _ => metaCall) p (.get k') outItem) w = _
    have e1 := callOn_meta p (.get k') outItem w (hw.1 p).1 ho
    unfold actOut
    rw [e1]
    simp only [replicaApi, secondOp, metaApi]
    cases (w p).find k' <;> rfl
  | set i =>
    simp only [Op.key?, Option.some.injEq] at hk; subst hk
    have := two_meta hpq hw (.set i) (.set i) ho ho trivial trivial
    show actOut _ (Cluster.set (metaEnv H name) r i) w = _
    unfold Cluster.set
    rw [onPicked_meta H name r.primary _ p hp, onPicked_meta H name r.secondary _ q hq]
    exact this
  | add i =>
    simp only [Op.key?, Option.some.injEq] at hk; subst hk
    have hg : GoodMetaItem i := ho
    have := two_meta hpq hw (.add i) (.set i) hg hg trivial trivial
    show actOut _ (Cluster.add (metaEnv H name) r i) w = _
    unfold Cluster.add
    rw [onPicked_meta H name r.primary _ p hp, onPicked_meta H name r.secondary _ q hq]
    exact this
  | replace i =>
    simp only [Op.key?, Option.some.injEq] at hk; subst hk
    have hg : GoodMetaItem i := ho
    have := two_meta hpq hw (.replace i) (.set i) hg hg trivial trivial
    show actOut _ (Cluster.replace (metaEnv H name) r i) w = _
    unfold Cluster.replace
    rw [onPicked_meta H name r.primary _ p hp, onPicked_meta H name r.secondary _ q hq]
    exact this
  | delete k' =>
    simp only [Op.key?, Option.some.injEq] at hk; subst hk
    have := two_meta hpq hw (.delete k') (.delete k') ho ho trivial trivial
    show actOut _ (Cluster.delete (metaEnv H name) r k') w = _
    unfold Cluster.delete
    rw [onPicked_meta H name r.primary _ p hp, onPicked_meta H name r.secondary _ q hq]
    exact this
  | _ => exact ho.elim

theorem update_id (w : World S) (s : S) : World.update w s (w s) = w := by
  funext x
  by_cases h : x = s
  · subst h; exact update_same _ _ _
  · exact update_other _ _ h

theorem find_delete (s : Store) (k : Bytes) : (s.delete k).2.find k = none := by
  unfold Store.delete
  cases h : s.find k with
  | none => exact h
  | some e => simp [Store.find, Store.write]

theorem healthy_both {w : World S} {n : Nat} (hw : Healthy w (n + 2)) {p q : S} (hpq : p ≠ q) (o1 o2 : Op)
    (h1 : GoodMetaOp (w p) o1) (h2 : GoodMetaOp (w q) o2) : Healthy (bothApi w p q o1 o2).2 n := by
  have a := healthy_call hw p o1 h1
  have hq : World.update w p (metaApi (w p) o1).2 q = w q := update_other _ _ (Ne.symm hpq)
  have b := healthy_call a q o2 (by rw [hq]; exact h2)
  rw [hq] at b
  unfold bothApi
  cases (metaApi (w p) o1).1 with
  | ok x => exact b
  | err e => exact healthy_mono a (by omega)
  | panic => exact healthy_mono a (by omega)

/-- C42, one call: the copies still agree afterwards. -/
theorem C42_step {H : Hashes} {name : S → Bytes} {ps qs : List S} {r : ReplicaPool S}
    (hr : TwoRings H name ps qs r) {w : World S} {n : Nat} (hw : Healthy w (n + 2)) (ha : Agree H r w)
    (op : Op) (ho : CopyOp op) {k : Bytes} (hk : op.key? = some k)
    {p q : S} (hp : r.primary.pick H k = .ok p) (hq : r.secondary.pick H k = .ok q) :
    Agree H r (replicaApi w p q op).2 ∧ Healthy (replicaApi w p q op).2 n := by
  have hpq := hr.ne hp hq
  have hnow := hw.2 p q
  cases op with
  | get k' =>
    have e : (metaApi (w p) (.get k')).2 = w p := by simp only [metaApi]; split <;> rfl
    show Agree H r (World.update w p (metaApi (w p) (.get k')).2) ∧ Healthy (World.update w p (metaApi (w p) (.get k')).2) n
    rw [e, update_id]
    exact ⟨ha, healthy_mono hw (by omega)⟩
  | set i =>
    simp only [Op.key?, Option.some.injEq] at hk; subst hk
    refine ⟨?_, healthy_both hw hpq (.set i) (.set i) ho.1 ho.1⟩
    show Agree H r (bothApi w p q (.set i) (.set i)).2
    unfold bothApi
    rw [set_plain i (w p) ho.2, set_plain i (w q) ho.2]
    dsimp only
    refine agree_step hr ha hp hq (.put ..) (.put ..) ?_
    rw [hnow]
    exact sameEntry_put hnow ..
  | add i =>
    simp only [Op.key?, Option.some.injEq] at hk; subst hk
    have hg : GoodMetaItem i := ho.1
    refine ⟨?_, healthy_both hw hpq (.add i) (.set i) hg hg⟩
    show Agree H r (bothApi w p q (.add i) (.set i)).2
    cases hf : (w p).find i.key with
    | some e =>
      have e1 : metaApi (w p) (.add i) = (.err .itemExists, w p) := by simp [metaApi, Store.store, hf]
      unfold bothApi
      rw [e1]
      dsimp only
      rw [update_id]
      exact ha
    | none =>
      have e1 : metaApi (w p) (.add i) = (.ok .done, (w p).put i.key i.value (flagsOf i) (expiryOf (w p).now i.expiration)) := by
        simp [metaApi, Store.store, hf]
      unfold bothApi
      rw [e1, set_plain i (w q) ho.2]
      dsimp only
      refine agree_step hr ha hp hq (.put ..) (.put ..) ?_
      rw [hnow, flags_agree hg]
      exact sameEntry_put hnow ..
  | replace i =>
    simp only [Op.key?, Option.some.injEq] at hk; subst hk
    have hg : GoodMetaItem i := ho.1
    refine ⟨?_, healthy_both hw hpq (.replace i) (.set i) hg hg⟩
    show Agree H r (bothApi w p q (.replace i) (.set i)).2
    cases hf : (w p).find i.key with
    | none =>
      have e1 : metaApi (w p) (.replace i) = (.err .itemNotFound, w p) := by simp [metaApi, Store.store, hf]
      unfold bothApi
      rw [e1]
      dsimp only
      rw [update_id]
      exact ha
    | some e =>
      have e1 : metaApi (w p) (.replace i) = (.ok .done, (w p).put i.key i.value (flagsOf i) (expiryOf (w p).now i.expiration)) := by
        simp [metaApi, Store.store, hf]
      unfold bothApi
      rw [e1, set_plain i (w q) ho.2]
      dsimp only
      refine agree_step hr ha hp hq (.put ..) (.put ..) ?_
      rw [hnow, flags_agree hg]
      exact sameEntry_put hnow ..
  | delete k' =>
    simp only [Op.key?, Option.some.injEq] at hk; subst hk
    refine ⟨?_, healthy_both hw hpq (.delete k') (.delete k') ho ho⟩
    show Agree H r (bothApi w p q (.delete k') (.delete k')).2
    simp only [bothApi, metaApi]
    refine agree_step hr ha hp hq (.delete ..) (.delete ..) ?_
    rw [find_delete, find_delete]
    trivial
  | _ => exact ho.elim

theorem copyOp_key {op : Op} (h : CopyOp op) : ∃ k, op.key? = some k := by
  cases op <;> first | exact ⟨_, rfl⟩ | exact h.elim

/-- C42: after every sequence of Get, Delete, and Set, Add, Replace of items without Cas through a
replica pool over memcached servers, each with arbitrary arguments memcached accepts and with any time in
between, every key has the same value, flags and expiry on its primary and its secondary, provided
that it was so in the beginning. -/
theorem C42_history {H : Hashes} {name : S → Bytes} {ps qs : List S} {r : ReplicaPool S}
    (hr : TwoRings H name ps qs r) (order : List (Bytes × List Bytes) → List (Bytes × List Bytes))
    (events : List Event) (ho : ∀ ev ∈ events, CopyOp ev.2) {w : World S} (hw : Healthy w (2 * events.length))
    (ha : Agree H r w) : Agree H r (runReplica H name r order w events).2 := by
  induction events generalizing w with
  | nil => exact ha
  | cons ev rest ih =>
    obtain ⟨d, op⟩ := ev
    have hop : CopyOp op := ho (d, op) (by simp)
    obtain ⟨k, hk⟩ := copyOp_key hop
    obtain ⟨p, q, hp, hq⟩ := hr.picks k
    have hw' : Healthy (World.tick w d) (2 * rest.length + 2) :=
      healthy_mono (healthy_tick hw d) (by simp only [List.length_cons]; omega)
    have hs := C42_step hr hw' (agree_tick ha hw d) op hop hk hp hq
    have hc := C42_call hr order (n := 2 * rest.length + 1) hw' op (CopyOp.write hop) hk hp hq
    simp only [runReplica]
    rw [hc]
    exact ih (fun ev hev => ho ev (by simp [hev])) hs.2 hs.1

/-! ### C43 -/

/-- `Increment` or `Decrement`. -/
def countOp (up : Bool) (k : Bytes) (d x : Int) : Op := if up then .increment k d x else .decrement k d x

theorem metaApi_count (s : Store) (up : Bool) (k : Bytes) (d x : Int) :
    metaApi s (countOp up k d x) = arithApi s up k d := by cases up <;> rfl

theorem goodMeta_count (s : Store) (up : Bool) (k : Bytes) (d x : Int) (hk : Key k) (hd : InRange 64 d) :
    GoodMetaOp s (countOp up k d x) := by cases up <;> exact ⟨hk, hd⟩

/-- What a successful counting command leaves behind. -/
theorem arithApi_ok {s : Store} {up : Bool} {k : Bytes} {d : Int} {x : Out} (h : (arithApi s up k d).1 = .ok x) :
    ∃ e m, s.find k = some e ∧ counterOf e.value = some m ∧ 0 ≤ d ∧ count up m d.toNat < 2 ^ 63
      ∧ x = .num (count up m d.toNat)
      ∧ (arithApi s up k d).2 = s.put k (padTo e.value.length (natDec (count up m d.toNat))) e.flags e.expiry := by
  unfold arithApi at h ⊢
  split at h
  · cases h
  · rename_i hd
    rw [if_neg hd]
    unfold Store.arith at h ⊢
    cases hf : s.find k with
    | none => rw [hf] at h; cases h
    | some e =>
      rw [hf] at h
      dsimp only at h ⊢
      cases hc : counterOf e.value with
      | none => rw [hc] at h; cases h
      | some m =>
        rw [hc] at h
        dsimp only [counted] at h ⊢
        split at h
        · rename_i hlt
          cases h
          exact ⟨e, m, rfl, hc, by omega, hlt, rfl, rfl⟩
        · cases h

theorem find_live {s : Store} {k : Bytes} {e : Entry} (h : s.find k = some e) : e.live s.now = true := by
  unfold Store.find at h
  cases hd : s.data k with
  | none => rw [hd] at h; cases h
  | some e' =>
    rw [hd] at h
    dsimp only at h
    split at h
    · cases h; assumption
    · cases h

/-- The entry a counter has after counting: the new digits, everything else as before. -/
def counterEntry (s : Store) (e : Entry) (n : Nat) : Entry :=
  ⟨padTo e.value.length (natDec n), e.flags, e.expiry, s.nextCas⟩

/-- The complete effect of a successful Increment/Decrement through the pool. -/
theorem replica_count {H : Hashes} {name : S → Bytes} {ps qs : List S} {r : ReplicaPool S}
    (hr : TwoRings H name ps qs r) (order : List (Bytes × List Bytes) → List (Bytes × List Bytes))
    {w : World S} {n : Nat} (hw : Healthy w (n + 2)) (up : Bool) (k : Bytes) (d x : Int) (hk : Key k) (hd : InRange 64 d)
    {p q : S} (hp : r.primary.pick H k = .ok p) (hq : r.secondary.pick H k = .ok q) :
    match (arithApi (w p) up k d).1 with
    | .ok y => ∃ e m, (w p).find k = some e ∧ counterOf e.value = some m ∧ y = .num (count up m d.toNat)
        ∧ replicaCall H name r order w (countOp up k d x)
          = (.ok y, World.update (World.update w p ((w p).put k (padTo e.value.length (natDec (count up m d.toNat))) e.flags e.expiry)) q
              ((w q).put k (padTo e.value.length (natDec (count up m d.toNat))) e.flags
                (expiryOf (w q).now (lifetime (w p).now e))))
    | .err er => replicaCall H name r order w (countOp up k d x)
          = (.err er, World.update w p (arithApi (w p) up k d).2)
    | .panic => False := by
  have hpq := hr.ne hp hq
  have hg := goodMeta_count (w p) up k d x hk hd
  have e1 := callOn_meta p (countOp up k d x) outNum w (hw.1 p).1 hg
  rw [metaApi_count] at e1
  have hcall : replicaCall H name r order w (countOp up k d x)
      = actOut .num (do
          let n ← callOn (fun _ => metaCall) p (countOp up k d x) outNum
          let item ← callOn (fun _ => metaCall) p (.get k) outItem
          callOn (fun _ => metaCall) q (.set (copyOf k item)) outDone
          pure n) w := by
    cases up with
    | true =>
      show actOut .num (Cluster.increment (metaEnv H name) r k d x) w = _
      unfold Cluster.increment
      have : (metaEnv H name).H = H := rfl
      rw [this, hp]
      simp only [onPicked_meta H name r.secondary k q hq]
      rfl
    | false =>
      show actOut .num (Cluster.decrement (metaEnv H name) r k d x) w = _
      unfold Cluster.decrement
      have : (metaEnv H name).H = H := rfl
      rw [this, hp]
      simp only [onPicked_meta H name r.secondary k q hq]
      rfl
  rw [hcall]
  have np := metaApi_nopanic (w p) (countOp up k d x)
  rw [metaApi_count] at np
  cases hres : (arithApi (w p) up k d).1 with
  | panic => exact np hres
  | err er =>
    rw [hres] at e1
    dsimp only
    unfold actOut
    rw [Act.bind_of_err e1]
    rfl
  | ok y =>
    dsimp only
    obtain ⟨e, m, hf, hm, hd0, hlt, rfl, hsp⟩ := arithApi_ok hres
    refine ⟨e, m, hf, hm, rfl, ?_⟩
    rw [hres, hsp] at e1
    have hh := healthy_call hw p (countOp up k d x) hg
    rw [metaApi_count, hsp] at hh
    generalize hsp' : (w p).put k (padTo e.value.length (natDec (count up m d.toNat))) e.flags e.expiry = sp at *
    have hfind : sp.find k = some (counterEntry (w p) e (count up m d.toNat)) := by
      rw [← hsp', find_put]
      have : Entry.live ⟨padTo e.value.length (natDec (count up m d.toNat)), e.flags, e.expiry, (w p).nextCas⟩ (w p).now
          = e.live (w p).now := rfl
      rw [this, find_live hf]
      rfl
    have hspn : sp.now = (w p).now := by rw [← hsp']; rfl
    have e2 := callOn_meta p (.get k) outItem (World.update w p sp) (hh.1 p).1 hk
    have e2' : metaApi (World.update w p sp p) (.get k)
        = (.ok (.item (metaItem sp.now k (counterEntry (w p) e (count up m d.toNat)))), sp) := by
      rw [update_same]
      simp only [metaApi, hfind]
    rw [e2'] at e2
    have hupd : World.update (World.update w p sp) p sp = World.update w p sp := by
      have := update_id (World.update w p sp) p
      rw [update_same] at this
      exact this
    rw [hupd] at e2
    have hgs := (hh.1 p).1
    rw [update_same] at hgs
    obtain ⟨f1, f2, f3, f4⟩ := hgs.good.entry k _ (find_data hfind)
    have hlr := lifetime_range hgs.good hfind
    have hitem : GoodMetaItem (copyOf k (metaItem sp.now k (counterEntry (w p) e (count up m d.toNat)))) := by
      refine ⟨⟨hk, f3, hlr, by simp [copyOf]⟩, ?_⟩
      intro f hf'
      simp only [copyOf, metaItem, Option.some.injEq] at hf'
      subst hf'
      refine ⟨putBE_length 4 _, ?_⟩
      unfold Flags31
      rw [getBE_putBE_lt 4 _ f1]
      exact hgs.flags k _ (find_data hfind)
    have hqs : World.update w p sp q = w q := update_other _ _ (Ne.symm hpq)
    have e3 := callOn_meta q (.set (copyOf k (metaItem sp.now k (counterEntry (w p) e (count up m d.toNat))))) outDone
      (World.update w p sp) (hh.1 q).1 hitem
    have hfl : metaFlagsOf (copyOf k (metaItem sp.now k (counterEntry (w p) e (count up m d.toNat)))) = e.flags := by
      show getBE ((putBE 4 e.flags).take 4) = e.flags
      rw [List.take_of_length_le (Nat.le_of_eq (putBE_length 4 _))]
      exact getBE_putBE_lt 4 _ f1
    rw [hqs, set_plain _ _ rfl, hfl, hspn] at e3
    unfold actOut
    rw [Act.bind_of_ok (show _ = (Res.ok _, _) from e1), Act.bind_of_ok (show _ = (Res.ok _, _) from e2), hspn,
      Act.bind_of_ok (show _ = (Res.ok _, _) from e3)]
    rfl

/-- When the copy on the secondary has the right expiry: `t` is the clock. -/
theorem expiry_copied (t : Nat) (h0 : 0 < t) (e : Entry) (hl : e.live t = true) :
    expiryOf t (lifetime t e) = e.expiry ↔ ∃ x, e.expiry = some x ∧ x ≤ t + maxDelta := by
  unfold lifetime
  cases hx : e.expiry with
  | none => simp [expiryOf]
  | some x =>
    have hlt : t < x := by unfold Entry.live at hl; simpa [hx] using hl
    simp only [Option.some.injEq, exists_eq_left']
    unfold expiryOf
    rw [if_neg (by omega), if_neg (by omega)]
    split
    · constructor
      · intro _; omega
      · intro _; congr 1; omega
    · constructor
      · intro h; simp only [Option.some.injEq] at h; omega
      · intro _; omega

/-- C43, the complete statement.  After a successful Increment (`up`) or Decrement through the pool
primary and secondary hold the same item under the key exactly if the item expires, and within 30
days; and for an item that never expires the secondary holds nothing at all. -/
theorem C43_count {H : Hashes} {name : S → Bytes} {ps qs : List S} {r : ReplicaPool S}
    (hr : TwoRings H name ps qs r) (order : List (Bytes × List Bytes) → List (Bytes × List Bytes))
    {w w' : World S} {n : Nat} (hw : Healthy w (n + 2)) (up : Bool) (k : Bytes) (d x : Int) (hk : Key k) (hd : InRange 64 d)
    {p q : S} (hp : r.primary.pick H k = .ok p) (hq : r.secondary.pick H k = .ok q) (h0 : 0 < (w p).now) {y : Out}
    (h : replicaCall H name r order w (if up then .increment k d x else .decrement k d x) = (.ok y, w')) :
    ∃ e c, (w' p).find k = some e ∧ y = .num c ∧ counterOf e.value = some c.toNat
      ∧ (SameEntry ((w' p).find k) ((w' q).find k) ↔ ∃ t, e.expiry = some t ∧ t ≤ (w p).now + maxDelta)
      ∧ (e.expiry = none → (w' q).find k = none) := by
  have hpq := hr.ne hp hq
  have hnow := hw.2 p q
  have hc := replica_count hr order hw up k d x hk hd hp hq
  have h' : replicaCall H name r order w (countOp up k d x) = (.ok y, w') := h
  rw [h'] at hc
  cases hres : (arithApi (w p) up k d).1 with
  | panic => rw [hres] at hc; exact hc.elim
  | err er => rw [hres] at hc; cases hc
  | ok y' =>
    rw [hres] at hc
    obtain ⟨e, m, hf, hm, rfl, hc⟩ := hc
    cases hc
    have hlive := find_live hf
    have hct : count up m d.toNat < 2 ^ 64 := count_lt up m _ (counterOf_lt hm)
    refine ⟨counterEntry (w p) e (count up m d.toNat), _, ?_, rfl, counterOf_padTo _ _ hct, ?_, ?_⟩
    · rw [update_other _ _ hpq, update_same, find_put]
      have : Entry.live ⟨padTo e.value.length (natDec (count up m d.toNat)), e.flags, e.expiry, (w p).nextCas⟩ (w p).now
          = e.live (w p).now := rfl
      rw [this, hlive]
      rfl
    · rw [update_other _ _ hpq, update_same, update_same, find_put, find_put, ← hnow]
      have e1 : Entry.live ⟨padTo e.value.length (natDec (count up m d.toNat)), e.flags, e.expiry, (w p).nextCas⟩ (w p).now
          = true := hlive
      rw [if_pos e1]
      refine Iff.trans ?_ (expiry_copied (w p).now h0 e hlive)
      constructor
      · intro hs
        split at hs
        · exact hs.2.2.symm
        · exact hs.elim
      · intro hs
        have e2 : Entry.live ⟨padTo e.value.length (natDec (count up m d.toNat)), e.flags,
            expiryOf (w p).now (lifetime (w p).now e), (w q).nextCas⟩ (w p).now = true := by
          rw [hs]; exact hlive
        rw [if_pos e2]
        exact ⟨rfl, rfl, hs.symm⟩
    · intro hnone
      have hnone' : e.expiry = none := hnone
      rw [update_same, find_put]
      have : Entry.live ⟨padTo e.value.length (natDec (count up m d.toNat)), e.flags,
            expiryOf (w q).now (lifetime (w p).now e), (w q).nextCas⟩ (w q).now = false := by
        simp [lifetime, hnone', expiryOf, Entry.live]
      rw [this]
      rfl

/-- C43: so agreement of everything is preserved when the counter expires within 30 days. -/
theorem C43_agree {H : Hashes} {name : S → Bytes} {ps qs : List S} {r : ReplicaPool S}
    (hr : TwoRings H name ps qs r) (order : List (Bytes × List Bytes) → List (Bytes × List Bytes))
    {w w' : World S} {n : Nat} (hw : Healthy w (n + 2)) (ha : Agree H r w) (up : Bool) (k : Bytes) (d x : Int)
    (hk : Key k) (hd : InRange 64 d) {p : S} (hp : r.primary.pick H k = .ok p) (h0 : 0 < (w p).now)
    {e : Entry} {t : Nat} (hf : (w p).find k = some e) (ht : e.expiry = some t) (hm : t ≤ (w p).now + maxDelta) {y : Out}
    (h : replicaCall H name r order w (if up then .increment k d x else .decrement k d x) = (.ok y, w')) :
    Agree H r w' := by
  obtain ⟨_, q, _, hq⟩ := hr.picks k
  have hnow := hw.2 p q
  have hc := replica_count hr order hw up k d x hk hd hp hq
  have h' : replicaCall H name r order w (countOp up k d x) = (.ok y, w') := h
  rw [h'] at hc
  cases hres : (arithApi (w p) up k d).1 with
  | panic => rw [hres] at hc; exact hc.elim
  | err er => rw [hres] at hc; cases hc
  | ok y' =>
    rw [hres] at hc
    obtain ⟨e', m, hf', hm', rfl, hc⟩ := hc
    rw [hf] at hf'; cases hf'
    cases hc
    refine agree_step hr ha hp hq (.put ..) (.put ..) ?_
    rw [← hnow, (expiry_copied (w p).now h0 e (find_live hf)).2 ⟨t, ht, hm⟩]
    exact sameEntry_put hnow ..

/-- C43: a failing Increment/Decrement leaves every server but the primary as it was ... -/
theorem C43_failed {H : Hashes} {name : S → Bytes} {ps qs : List S} {r : ReplicaPool S}
    (hr : TwoRings H name ps qs r) (order : List (Bytes × List Bytes) → List (Bytes × List Bytes))
    {w w' : World S} {n : Nat} (hw : Healthy w (n + 2)) (up : Bool) (k : Bytes) (d x : Int) (hk : Key k) (hd : InRange 64 d)
    {p : S} (hp : r.primary.pick H k = .ok p) {er : Err}
    (h : replicaCall H name r order w (if up then .increment k d x else .decrement k d x) = (.err er, w')) :
    ∀ s, s ≠ p → w' s = w s := by
  obtain ⟨_, q, _, hq⟩ := hr.picks k
  have hc := replica_count hr order hw up k d x hk hd hp hq
  have h' : replicaCall H name r order w (countOp up k d x) = (.err er, w') := h
  rw [h'] at hc
  cases hres : (arithApi (w p) up k d).1 with
  | panic => rw [hres] at hc; exact hc.elim
  | ok y' => rw [hres] at hc; obtain ⟨_, _, _, _, _, hc⟩ := hc; cases hc
  | err er' =>
    rw [hres] at hc
    cases hc
    intro s hs
    exact update_other _ _ hs

/-- C43: ... but the primary may have changed: an Increment past 2^63 is carried out there, fails
because of its result, and is never copied. -/
theorem C43_past_int64 {H : Hashes} {name : S → Bytes} {ps qs : List S} {r : ReplicaPool S}
    (hr : TwoRings H name ps qs r) (order : List (Bytes × List Bytes) → List (Bytes × List Bytes))
    {w : World S} {n : Nat} (hw : Healthy w (n + 2)) (ha : Agree H r w) (k : Bytes) (d x : Int) (hk : Key k)
    (hd : InRange 64 d) (hd0 : 0 < d)
    {p : S} (hp : r.primary.pick H k = .ok p) {e : Entry} {m : Nat} (hf : (w p).find k = some e)
    (hm : counterOf e.value = some m) (hbig : 2 ^ 63 ≤ m + d.toNat) (hno : m + d.toNat < 2 ^ 64) :
    ∃ w' e', replicaCall H name r order w (.increment k d x) = (.err .num, w')
      ∧ (w' p).find k = some e' ∧ counterOf e'.value = some (m + d.toNat) ∧ ¬ Agree H r w' := by
  obtain ⟨_, q, _, hq⟩ := hr.picks k
  have hpq := hr.ne hp hq
  have hc := replica_count hr order hw true k d x hk hd hp hq
  have hcount : count true m d.toNat = m + d.toNat := by simp [count, Nat.mod_eq_of_lt hno]
  have hap : arithApi (w p) true k d = (.err .num, (w p).put k (padTo e.value.length (natDec (m + d.toNat))) e.flags e.expiry) := by
    unfold arithApi Store.arith
    rw [if_neg (by omega), hf]
    dsimp only
    rw [hm]
    dsimp only
    rw [hcount]
    unfold counted
    dsimp only
    rw [if_neg (by omega)]
  rw [hap] at hc
  have hfind : ((w p).put k (padTo e.value.length (natDec (m + d.toNat))) e.flags e.expiry).find k
      = some (counterEntry (w p) e (m + d.toNat)) := by
    rw [find_put]
    have : Entry.live ⟨padTo e.value.length (natDec (m + d.toNat)), e.flags, e.expiry, (w p).nextCas⟩ (w p).now
        = e.live (w p).now := rfl
    rw [this, find_live hf]
    rfl
  refine ⟨_, counterEntry (w p) e (m + d.toNat), hc, by rw [update_same]; exact hfind, counterOf_padTo _ _ hno, ?_⟩
  intro hag
  have h1 := hag k p q hp hq
  rw [update_same, update_other _ _ (Ne.symm hpq), hfind] at h1
  have h2 := ha k p q hp hq
  rw [hf] at h2
  cases hfq : (w q).find k with
  | none => rw [hfq] at h2; exact h2
  | some e2 =>
    rw [hfq] at h1 h2
    have h3 : padTo e.value.length (natDec (m + d.toNat)) = e.value := h1.1.trans h2.1.symm
    have h4 := counterOf_padTo e.value.length (m + d.toNat) hno
    rw [h3, hm] at h4
    simp only [Option.some.injEq] at h4
    omega

/-! ### C44 -/

/-- The stored form of an item. -/
def Holds (s : Store) (i : Item) : Prop :=
  ∃ e, s.data i.key = some e ∧ e.value = i.value ∧ e.flags = metaFlagsOf i ∧ e.expiry = expiryOf s.now i.expiration

theorem holds_put (s : Store) (i : Item) (f : Nat) (hf : f = metaFlagsOf i) :
    Holds (s.put i.key i.value f (expiryOf s.now i.expiration)) i :=
  ⟨⟨i.value, f, expiryOf s.now i.expiration, s.nextCas⟩, by simp [Store.put, Store.write], rfl, hf, rfl⟩

theorem set_cas_hit (i : Item) (s : Store) (h0 : 0 < i.cas) {e : Entry} (hf : s.find i.key = some e) (hc : e.cas = i.cas) :
    metaApi s (.set i) = (.ok .done, s.put i.key i.value (metaFlagsOf i) (expiryOf s.now i.expiration)) := by
  simp [metaApi, h0, Store.store, hf, hc]

theorem set_cas_other (i : Item) (s : Store) (h0 : 0 < i.cas) {e : Entry} (hf : s.find i.key = some e) (hc : e.cas ≠ i.cas) :
    metaApi s (.set i) = (.err .itemExists, s) := by
  simp [metaApi, h0, Store.store, hf, hc]

theorem set_cas_none (i : Item) (s : Store) (h0 : 0 < i.cas) (hf : s.find i.key = none) :
    metaApi s (.set i) = (.err .itemNotFound, s) := by
  simp [metaApi, h0, Store.store, hf]

/-- C44: a Set with the primary's current token is always carried out on the primary; it succeeds, on
both, exactly if the secondary's token happens to be the same number.  Otherwise the call fails and
the secondary keeps what it had. -/
theorem C44_set {H : Hashes} {name : S → Bytes} {ps qs : List S} {r : ReplicaPool S}
    (hr : TwoRings H name ps qs r) (order : List (Bytes × List Bytes) → List (Bytes × List Bytes))
    {w : World S} {n : Nat} (hw : Healthy w (n + 2)) (i : Item) (hi : GoodMetaItem i) (h0 : 0 < i.cas)
    {p q : S} (hp : r.primary.pick H i.key = .ok p) (hq : r.secondary.pick H i.key = .ok q)
    {e : Entry} (hf : (w p).find i.key = some e) (hc : e.cas = i.cas) :
    ∃ res w', replicaCall H name r order w (.set i) = (res, w') ∧ Holds (w' p) i
      ∧ (match (w q).find i.key with
          | some e2 => if e2.cas = i.cas then res = .ok .done ∧ Holds (w' q) i else res = .err .itemExists ∧ w' q = w q
          | none => res = .err .itemNotFound ∧ w' q = w q) := by
  have hpq := hr.ne hp hq
  have hcall := C42_call hr order hw (.set i) hi rfl hp hq
  simp only [replicaApi, secondOp, bothApi] at hcall
  rw [set_cas_hit i (w p) h0 hf hc] at hcall
  dsimp only at hcall
  have hold : ∀ s', Holds (World.update (World.update w p ((w p).put i.key i.value (metaFlagsOf i) (expiryOf (w p).now i.expiration))) q s' p) i := by
    intro s'
    rw [update_other _ _ hpq, update_same]
    exact holds_put _ _ _ rfl
  cases hfq : (w q).find i.key with
  | none =>
    rw [set_cas_none i (w q) h0 hfq] at hcall
    exact ⟨_, _, hcall, hold _, rfl, by rw [update_same]⟩
  | some e2 =>
    by_cases h2 : e2.cas = i.cas
    · rw [set_cas_hit i (w q) h0 hfq h2] at hcall
      refine ⟨_, _, hcall, hold _, ?_⟩
      dsimp only
      rw [if_pos h2, update_same]
      exact ⟨rfl, holds_put _ _ _ rfl⟩
    · rw [set_cas_other i (w q) h0 hfq h2] at hcall
      refine ⟨_, _, hcall, hold _, ?_⟩
      dsimp only
      rw [if_neg h2, update_same]
      exact ⟨rfl, rfl⟩

/-- C44: Adding an item that carries a token (such as one read before) to a key that is on neither
server stores it on the primary and fails on the secondary. -/
theorem C44_add {H : Hashes} {name : S → Bytes} {ps qs : List S} {r : ReplicaPool S}
    (hr : TwoRings H name ps qs r) (order : List (Bytes × List Bytes) → List (Bytes × List Bytes))
    {w : World S} {n : Nat} (hw : Healthy w (n + 2)) (i : Item) (hi : GoodMetaItem i) (h0 : 0 < i.cas)
    {p q : S} (hp : r.primary.pick H i.key = .ok p) (hq : r.secondary.pick H i.key = .ok q)
    (hf : (w p).find i.key = none) (hfq : (w q).find i.key = none) :
    ∃ w', replicaCall H name r order w (.add i) = (.err .itemNotFound, w') ∧ Holds (w' p) i ∧ w' q = w q := by
  have hpq := hr.ne hp hq
  have hcall := C42_call hr order hw (.add i) hi rfl hp hq
  have e1 : metaApi (w p) (.add i) = (.ok .done, (w p).put i.key i.value (flagsOf i) (expiryOf (w p).now i.expiration)) := by
    simp [metaApi, Store.store, hf]
  simp only [replicaApi, secondOp, bothApi] at hcall
  rw [e1, set_cas_none i (w q) h0 hfq] at hcall
  refine ⟨_, hcall, ?_, by rw [update_same]⟩
  rw [update_other _ _ hpq, update_same]
  exact holds_put _ _ _ (flags_agree hi)

/-- C44: such tokens do arise in the course of ordinary use: two keys with different primaries and a
common secondary are set through the pool; then a Get of the second key returns a token with which
a Set fails, although nobody else has used the servers. -/
theorem C44_reachable {H : Hashes} {name : S → Bytes} {ps qs : List S} {r : ReplicaPool S}
    (hr : TwoRings H name ps qs r) (order : List (Bytes × List Bytes) → List (Bytes × List Bytes))
    {w : World S} {n : Nat} (hw : Healthy w (n + 8)) (i1 i2 : Item) (h1 : CopyOp (.set i1)) (h2 : CopyOp (.set i2))
    (hne : i1.key ≠ i2.key) (he1 : i1.expiration = 0) (he2 : i2.expiration = 0)
    {p1 p2 q : S} (hp1 : r.primary.pick H i1.key = .ok p1) (hp2 : r.primary.pick H i2.key = .ok p2) (hp : p1 ≠ p2)
    (hq1 : r.secondary.pick H i1.key = .ok q) (hq2 : r.secondary.pick H i2.key = .ok q)
    (hcas : (w p2).nextCas = (w q).nextCas) (hpos : 0 < (w q).nextCas) (v : Bytes) (hv : v.length ≤ maxValue) :
    ∃ w2 it w3, (runReplica H name r order w [(0, .set i1), (0, .set i2)]) = ([.ok .done, .ok .done], w2)
      ∧ replicaCall H name r order w2 (.get i2.key) = (.ok (.item it), w2)
      ∧ replicaCall H name r order w2 (.set { it with value := v, expiration := 0 }) = (.err .itemExists, w3)
      ∧ (w3 p2).find i2.key ≠ none ∧ Holds (w3 p2) { it with value := v, expiration := 0 } ∧ w3 q = w2 q := by
  have n1 := hr.ne hp1 hq1
  have n2 := hr.ne hp2 hq2
  have htick : ∀ w : World S, World.tick w 0 = w := fun w => rfl
  -- first call
  have c1 := C42_call hr order (n := n + 7) hw (.set i1) h1.1 rfl hp1 hq1
  have s1 : replicaApi w p1 q (.set i1) = (.ok .done,
      World.update (World.update w p1 ((w p1).put i1.key i1.value (metaFlagsOf i1) none)) q
        ((w q).put i1.key i1.value (metaFlagsOf i1) none)) := by
    simp only [replicaApi, secondOp, bothApi]
    rw [set_plain i1 (w p1) h1.2, set_plain i1 (w q) h1.2, he1]
    rfl
  have hw1 : Healthy (replicaApi w p1 q (.set i1)).2 (n + 6) :=
    healthy_both (n := n + 6) hw n1 (.set i1) (.set i1) h1.1 h1.1
  rw [s1] at c1 hw1
  generalize hW1 : World.update (World.update w p1 ((w p1).put i1.key i1.value (metaFlagsOf i1) none)) q
        ((w q).put i1.key i1.value (metaFlagsOf i1) none) = W1 at *
  have hq' : (W1 q).nextCas = (w q).nextCas + 1 := by rw [← hW1, update_same]; rfl
  have hp2' : W1 p2 = w p2 := by rw [← hW1, update_other _ _ n2, update_other _ _ (Ne.symm hp)]
  -- second call
  have c2 := C42_call hr order (n := n + 5) hw1 (.set i2) h2.1 rfl hp2 hq2
  have s2 : replicaApi W1 p2 q (.set i2) = (.ok .done,
      World.update (World.update W1 p2 ((W1 p2).put i2.key i2.value (metaFlagsOf i2) none)) q
        ((W1 q).put i2.key i2.value (metaFlagsOf i2) none)) := by
    simp only [replicaApi, secondOp, bothApi]
    rw [set_plain i2 (W1 p2) h2.2, set_plain i2 (W1 q) h2.2, he2]
    rfl
  have hw2 : Healthy (replicaApi W1 p2 q (.set i2)).2 (n + 4) :=
    healthy_both (n := n + 4) hw1 n2 (.set i2) (.set i2) h2.1 h2.1
  rw [s2] at c2 hw2
  generalize hW2 : World.update (World.update W1 p2 ((W1 p2).put i2.key i2.value (metaFlagsOf i2) none)) q
        ((W1 q).put i2.key i2.value (metaFlagsOf i2) none) = W2 at *
  have fp : (W2 p2).find i2.key = some ⟨i2.value, metaFlagsOf i2, none, (w q).nextCas⟩ := by
    rw [← hW2, update_other _ _ n2, update_same, find_put, hp2', hcas]
    rfl
  have fq : (W2 q).find i2.key = some ⟨i2.value, metaFlagsOf i2, none, (w q).nextCas + 1⟩ := by
    rw [← hW2, update_same, find_put, hq']
    rfl
  have c3 := C42_call hr order (n := n + 3) hw2 (.get i2.key) h2.1.good.key rfl hp2 hq2
  have s3 : replicaApi W2 p2 q (.get i2.key) = (.ok (.item (metaItem (W2 p2).now i2.key ⟨i2.value, metaFlagsOf i2, none, (w q).nextCas⟩)), W2) := by
    simp only [replicaApi, secondOp, metaApi, fp]
    rw [update_id]
  rw [s3] at c3
  generalize hit : metaItem (W2 p2).now i2.key ⟨i2.value, metaFlagsOf i2, none, (w q).nextCas⟩ = it at *
  have itk : it.key = i2.key := by rw [← hit]; rfl
  have itc : it.cas = (w q).nextCas := by rw [← hit]; rfl
  have itf : it.flags = some (putBE 4 (metaFlagsOf i2)) := by rw [← hit]; rfl
  have hlt := metaFlags_lt h2.1
  have hgood : GoodMetaItem { it with value := v, expiration := 0 } := by
    refine ⟨⟨by show Key it.key; rw [itk]; exact h2.1.good.key, hv, by show InRange 32 (0:Int); decide, ?_⟩, ?_⟩
    · show it.cas < _
      rw [itc]
      have := (hw.1 q).2
      omega
    · intro f hf
      have hf' : some (putBE 4 (metaFlagsOf i2)) = some f := itf ▸ hf
      cases hf'
      refine ⟨putBE_length 4 _, ?_⟩
      unfold Flags31
      rw [getBE_putBE_lt 4 _ (Nat.lt_trans hlt (by decide))]
      exact hlt
  have hkey : ({ it with value := v, expiration := 0 } : Item).key = i2.key := itk
  obtain ⟨res, w3, c4, hh, hm⟩ := C44_set hr order (n := n + 2) hw2 { it with value := v, expiration := 0 } hgood
    (by show 0 < it.cas; rw [itc]; exact hpos) (p := p2) (q := q) (by rw [hkey]; exact hp2) (by rw [hkey]; exact hq2)
    (e := ⟨i2.value, metaFlagsOf i2, none, (w q).nextCas⟩) (by rw [hkey]; exact fp) itc.symm
  rw [hkey, fq] at hm
  dsimp only at hm
  rw [if_neg (by rw [itc]; omega)] at hm
  obtain ⟨rfl, hq3⟩ := hm
  refine ⟨W2, it, w3, ?_, c3, c4, ?_, hh, hq3⟩
  · simp only [runReplica, htick]
    rw [c1]
    dsimp only
    rw [c2]
  · obtain ⟨e, he, _, _, hx⟩ := hh
    rw [hkey] at he
    have hx' : e.expiry = none := by rw [hx]; rfl
    unfold Store.find
    rw [he]
    simp [Entry.live, hx']

end Props
end Verif
