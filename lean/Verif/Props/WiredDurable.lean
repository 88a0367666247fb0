import Verif.Props.WiredBreakReplica
/-!
C87: what a method of a replica pool that has returned leaves on both servers of its key, whatever breaks.
-/

namespace Verif
namespace Wired
open Kv Spec Mc Pool Cluster Props

variable {S M : Type} [DecidableEq S]

/-! ### Traces -/

theorem snoc_split {α : Type} {tr t1 t2 : List α} {e x : α} (h : tr ++ [e] = t1 ++ x :: t2) :
    (t2 = [] ∧ x = e ∧ t1 = tr) ∨ ∃ t2', t2 = t2' ++ [e] ∧ tr = t1 ++ x :: t2' := by
  rcases List.eq_nil_or_concat t2 with rfl | ⟨t2', y, rfl⟩
  · obtain ⟨h1, h2⟩ := List.append_inj' h rfl
    injection h2 with h2
    exact .inl ⟨rfl, h2.symm, h1.symm⟩
  · rw [List.concat_eq_append] at h ⊢
    rw [← List.cons_append, ← List.append_assoc] at h
    obtain ⟨h1, h2⟩ := List.append_inj' h rfl
    injection h2 with h2
    subst h2
    exact .inr ⟨t2', rfl, h1⟩

theorem under_snoc {tr : List (Ev Op)} {e : Ev Op} {i : Nat} {o : Op} (h : Spec.Wired.Under (tr ++ [e]) i o) :
    e = .start i o ∨ (Spec.Wired.Under tr i o ∧ ∀ r, e ≠ .finish i r) := by
  obtain ⟨t1, t2, h1, h2⟩ := h
  rcases snoc_split h1 with ⟨-, h3, -⟩ | ⟨t2', rfl, h3⟩
  · exact .inl h3.symm
  · exact .inr ⟨⟨t1, t2', h3, fun r hr => h2 r (List.mem_append_left _ hr)⟩, fun r he => h2 r (List.mem_append_right _ (by rw [he]; exact .head _))⟩

theorem answered_snoc {tr : List (Ev Op)} {e : Ev Op} {i : Nat} {o : Op} {r : Res Out} (h : Spec.Wired.Answered (tr ++ [e]) i o r) :
    (e = .finish i r ∧ Spec.Wired.Under tr i o) ∨ Spec.Wired.Answered tr i o r := by
  obtain ⟨t1, t2, h1, h2⟩ := h
  rcases snoc_split h1 with ⟨-, h3, rfl⟩ | ⟨t2', rfl, h3⟩
  · exact .inl ⟨h3.symm, h2⟩
  · exact .inr ⟨t1, t2', h3, h2⟩

/-! ### Worlds -/

/-- What we follow on the two servers `p`, `q` of key `k`: unchanged since `w`, or `B`. -/
structure Pair (k : Bytes) (B : Store → Prop) (w : World S) (p q : S) (w' : World S) : Prop where
  primary : (w' p).data k = (w p).data k ∨ B (w' p)
  secondary : (w' q).data k = (w q).data k ∨ (B (w' q) ∧ B (w' p))

/-- The two servers after a step. -/
structure Grows (k : Bytes) (B : Store → Prop) (w : World S) (p q : S) (w1 w2 : World S) : Prop where
  pair : Pair k B w p q w1 → Pair k B w p q w2
  mp : B (w1 p) → B (w2 p)
  mq : B (w1 q) → B (w2 q)

/-- What `B` must be like. -/
structure Lasting (k : Bytes) (B : Store → Prop) : Prop where
  tick : ∀ st d, B st → B (st.tick d)
  frame : ∀ st st' : Store, st'.data k = st.data k → st'.now = st.now → B st → B st'

section
variable {k : Bytes} {B : Store → Prop} {w : World S} {p q : S}

theorem Grows.rfl' (w1 : World S) : Grows k B w p q w1 w1 := ⟨id, id, id⟩

theorem grows_tick (hB : Lasting k B) (w1 : World S) (d : Nat) : Grows k B w p q w1 (World.tick w1 d) :=
  ⟨fun h => ⟨h.primary.imp id (hB.tick _ _), h.secondary.imp id fun h => ⟨hB.tick _ _ h.1, hB.tick _ _ h.2⟩⟩, hB.tick _ _, hB.tick _ _⟩

theorem op_frame {op : Op} {k' : Bytes} (hk : op.key? = some k') {st0 : Store} (hg : GoodMetaOp st0 op) (hne : k' ≠ k ∨ changing op = false) (st : Store) :
    (metaApi st op).2.data k = st.data k ∧ (metaApi st op).2.now = st.now := by
  rcases hne with hne | hne
  · have ht := touches_op op k' hk (by rintro k e rfl; exact hg) st
    exact ⟨ht.2 k hne.symm, ht.1⟩
  · rw [get_same hne]; exact ⟨rfl, rfl⟩

theorem grows_frame (hB : Lasting k B) {w1 : World S} {s : S} {st : Store} (h1 : st.data k = (w1 s).data k) (h2 : st.now = (w1 s).now) :
    Grows k B w p q w1 (World.update w1 s st) := by
  have hd : ∀ s', (World.update w1 s st s').data k = (w1 s').data k := fun s' => by
    show (if s' = s then st else w1 s').data k = _
    by_cases hs : s' = s
    · rw [if_pos hs, h1, hs]
    · rw [if_neg hs]
  have hn : ∀ s', (World.update w1 s st s').now = (w1 s').now := fun s' => by
    show (if s' = s then st else w1 s').now = _
    by_cases hs : s' = s
    · rw [if_pos hs, h2, hs]
    · rw [if_neg hs]
  have hb : ∀ s', B (w1 s') → B (World.update w1 s st s') := fun s' => hB.frame _ _ (hd s') (hn s')
  exact ⟨fun h => ⟨h.primary.imp (fun h => (hd _).trans h) (hb _), h.secondary.imp (fun h => (hd _).trans h) fun h => ⟨hb _ h.1, hb _ h.2⟩⟩, hb _, hb _⟩

theorem update_self (w1 : World S) (s : S) (st : Store) : World.update w1 s st s = st := if_pos rfl

theorem update_ne (w1 : World S) {s s' : S} (st : Store) (h : s' ≠ s) : World.update w1 s st s' = w1 s' := if_neg h

theorem grows_primary (hpq : p ≠ q) {w1 : World S} {st : Store} (h : B st) : Grows k B w p q w1 (World.update w1 p st) := by
  refine ⟨fun g => ⟨?_, ?_⟩, fun _ => ?_, fun g => ?_⟩
  · rw [update_self]; exact .inr h
  · rw [update_ne _ _ hpq.symm, update_self]
    exact g.secondary.imp id fun g => ⟨g.1, h⟩
  · rw [update_self]; exact h
  · rw [update_ne _ _ hpq.symm]; exact g

theorem grows_secondary (hpq : p ≠ q) {w1 : World S} {st : Store} (h : B st) (hp : B (w1 p)) : Grows k B w p q w1 (World.update w1 q st) := by
  refine ⟨fun g => ⟨?_, ?_⟩, fun g => ?_, fun _ => ?_⟩
  · rw [update_ne _ _ hpq]; exact .inr hp
  · rw [update_self, update_ne _ _ hpq]; exact .inr ⟨h, hp⟩
  · rw [update_ne _ _ hpq]; exact g
  · rw [update_self]; exact h
end

/-! ### Goroutines -/

/-- The call changes key `k`. -/
def Alters (k : Bytes) (o : Op) : Prop := o.key? = some k ∧ changing o = true

/-- A result that is no error. -/
def Fine (r : Res Out) : Prop := ∃ y, r = .ok y

/-- How far goroutine `i` is with `o`; `bp` and `bq`: the primary and the secondary of `k` have been written. -/
inductive Doing1 (H : Hashes) (r : ReplicaPool S) (p q : Bytes → S) (k : Bytes) (G : Op → Prop) (bp bq : Prop) :
    Option Op → Option (Prog S) → Option (Res Out) → Prop where
  | none : Doing1 H r p q k G bp bq none none none
  | called (o : Op) : PlainOp o → G o → Doing1 H r p q k G bp bq (some o) (some (replicaProg H r o)) none
  | ran (o : Op) (st : Store) : PlainOp o → G o → (Alters k o → Fine (metaApi st o).1 → bp) →
      Doing1 H r p q k G bp bq (some o) (some (replicaProg H r o)) (some (metaApi st o).1)
  | did (o : Op) (res : Res Out) (pr : Prog S) : PlainOp o → G o → Stage H r p q o res pr → (Alters k o → Fine res → bp) →
      (Alters k o → ∀ y, pr = .ret (.ok y) → bq) → Doing1 H r p q k G bp bq (some o) (some pr) none
  | known (o : Op) (res : Res Out) (s : S) (op : Op) (f : Res Out → Prog S) (x : Res Out) : PlainOp o → G o →
      Stage H r p q o res (.call s op f) → Stage H r p q o res (f x) → (Alters k o → Fine res → bp) →
      (Alters k o → bq) → Doing1 H r p q k G bp bq (some o) (some (.call s op f)) (some x)

/-- What the calls of the run must be like. -/
structure Works1 (k : Bytes) (G : Op → Prop) (B : Store → Prop) : Prop where
  lasting : Lasting k B
  first : ∀ o, G o → Alters k o → ∀ st, (Fine (metaApi st o).1 ∧ B (metaApi st o).2) ∨ (¬ Fine (metaApi st o).1 ∧ (metaApi st o).2 = st)
  second : ∀ o o2, G o → Alters k o → CopyFor o k o2 → ∀ st, B (metaApi st o2).2
  kinds : ∀ o, G o → Alters k o → ¬ IsArith o

section
variable {H : Hashes} {r : ReplicaPool S} {p q : Bytes → S} {proc : Nat → Nat} {k : Bytes} {G : Op → Prop} {B : Store → Prop}

theorem Doing1.mono {bp bq bp' bq' : Prop} (h1 : bp → bp') (h2 : bq → bq') {o : Option Op} {u : Option (Prog S)} {v : Option (Res Out)}
    (h : Doing1 H r p q k G bp bq o u v) : Doing1 H r p q k G bp' bq' o u v := by
  cases h with
  | none => exact .none
  | called o g1 g2 => exact .called o g1 g2
  | ran o st g1 g2 g3 => exact .ran o st g1 g2 fun a b => h1 (g3 a b)
  | did o res pr g1 g2 g3 g4 g5 => exact .did o res pr g1 g2 g3 (fun a b => h1 (g4 a b)) fun a y e => h2 (g5 a y e)
  | known o res s op f x g1 g2 g3 g4 g5 g6 => exact .known o res s op f x g1 g2 g3 g4 (fun a b => h1 (g5 a b)) fun a => h2 (g6 a)

/-- The whole. -/
structure Durable (H : Hashes) (r : ReplicaPool S) (p q : Bytes → S) (k : Bytes) (G : Op → Prop) (B : Store → Prop) (w : World S)
    (tr : List (Ev Op)) (a : Shaky S) (cur : Nat → Option Op) : Prop where
  pair : Pair k B w (p k) (q k) a.world
  each : ∀ i, Doing1 H r p q k G (B (a.world (p k))) (B (a.world (q k))) (cur i) (a.prog i) (a.result i)
  pending1 : ∀ c, ∀ op ∈ a.pending c (p k), Alters k op → ∀ st, B (metaApi st op).2 ∨ (metaApi st op).2 = st
  pending2 : ∀ c, ∀ op ∈ a.pending c (q k), Alters k op → (∀ st, B (metaApi st op).2) ∧ B (a.world (p k))
  under : ∀ i o, Spec.Wired.Under tr i o → cur i = some o
  answered : ∀ i o y, Spec.Wired.Answered tr i o (.ok y) → Alters k o → B (a.world (p k)) ∧ B (a.world (q k))

/-- The calls of a method on the two servers of `k`. -/
theorem stage_alters {o : Op} {res : Res Out} {s : S} {op : Op} {f : Res Out → Prog S} (h : Stage H r p q o res (.call s op f))
    (hw : Works1 k G B) (hG : G o) (ha : Alters k o) : s = q k ∧ CopyFor o k op ∧ Fine res := by
  cases h with
  | copy k' o2 hk hc hf hres =>
    rw [ha.1] at hk
    injection hk with hk
    subst hk
    exact ⟨rfl, hf, _, hres⟩
  | read k' hk n ho hres hkey => exact absurd ho (hw.kinds o hG ha)
  | write k' n ho hres item hi hkey => exact absurd ho (hw.kinds o hG ha)

theorem stage_harmless {o : Op} {res : Res Out} {s : S} {op : Op} {f : Res Out → Prog S} (h : Stage H r p q o res (.call s op f))
    (ha : ¬ Alters k o) : ¬ Alters k op := by
  obtain ⟨k', h1, h2, h3, -⟩ := stage_where h
  rintro ⟨g1, g2⟩
  rw [h2] at g1
  exact ha ⟨h1.trans g1, h3⟩

omit [DecidableEq S] in
theorem first_calls (hp : ∀ k, r.primary.pick H k = .ok (p k)) (hq : ∀ k, r.secondary.pick H k = .ok (q k)) {o : Op} (hc : changing o = true)
    {s : S} {op : Op} {f : Res Out → Prog S} (h : replicaProg H r o = .call s op f) (x : Res Out) (y : Out) : f x ≠ .ret (.ok y) := by
  have done : ∀ {α : Type} (out : Out → Option α) (g : α → Prog S), (∀ a, g a ≠ .ret (.ok y)) → andThen out g x ≠ .ret (.ok y) := by
    intro α out g hg
    cases x with
    | err e => intro e; cases e
    | panic => intro e; cases e
    | ok x =>
      show (match out x with | some a => g a | none => .ret .panic) ≠ _
      cases out x with
      | none => intro e; cases e
      | some a => exact hg a
  cases o <;> simp only [replicaProg, twoCalls, threeCalls, hp, hq, onPick] at h <;> first
    | (cases hc; done)
    | (cases h; exact done _ _ fun _ e => by cases e)
    | cases h

/-- A call that does not change `k`. -/
theorem grows_harmless (hw : Works1 k G B) {w w1 : World S} {s : S} {op : Op} {k' : Bytes} (hk : op.key? = some k')
    (hg : ∀ st, GoodMetaOp st op) (ha : ¬ Alters k op) : Grows k B w (p k) (q k) w1 (World.update w1 s (metaApi (w1 s) op).2) := by
  obtain ⟨h1, h2⟩ := op_frame (k := k) hk (hg (w1 s)) (by
    by_cases e : k' = k
    · subst e
      refine .inr ?_
      cases hc : changing op with
      | false => rfl
      | true => exact absurd ⟨hk, hc⟩ ha
    · exact .inl e) (w1 s)
  exact grows_frame hw.lasting h1 h2

theorem durable_step {again : Bool} (hp : ∀ k, r.primary.pick H k = .ok (p k)) (hq : ∀ k, r.secondary.pick H k = .ok (q k)) (hpq : ∀ k k', p k ≠ q k')
    (hw : Works1 k G B) {w : World S} {a a' : Shaky S} {d : Deed S Op} {tr : List (Ev Op)} {cur : Nat → Option Op}
    (h : Durable H r p q k G B w tr a cur) (hh : Healthy a.world (carriedOut [d]))
    (hgood : ∀ c s, ∀ op ∈ a.pending c s, (∀ st, GoodMetaOp st op) ∧ (∃ k, op.key? = some k ∧ (s = p k ∨ s = q k)))
    (hs : AgainStep again (fun _ => metaCall) (replicaProg H r) proc a d a') (hd : ∀ i o, d = .ev (.start i o) → PlainOp o ∧ G o) :
    ∃ cur', Durable H r p q k G B w (tr ++ seenOf [d]) a' cur' := by
  have hne : p k ≠ q k := hpq k k
  -- all goroutines, after one has moved and the servers have changed
  have move : ∀ {w' : World S} {i : Nat} {u : Option (Prog S)} {v : Option (Res Out)} {x : Option Op}, Grows k B w (p k) (q k) a.world w' →
      Doing1 H r p q k G (B (w' (p k))) (B (w' (q k))) x u v →
      ∀ j, Doing1 H r p q k G (B (w' (p k))) (B (w' (q k))) (if j = i then x else cur j) (if j = i then u else a.prog j) (if j = i then v else a.result j) := by
    intro w' i u v x hw' hx j
    by_cases hj : j = i
    · rw [if_pos hj, if_pos hj, if_pos hj]; exact hx
    · rw [if_neg hj, if_neg hj, if_neg hj]; exact (h.each j).mono hw'.mp hw'.mq
  have same : ∀ {α : Type} {f : Nat → α} {i : Nat} {v : α}, f i = v → (fun j => if j = i then v else f j) = f := by
    intro α f i v hv
    funext j
    by_cases hj : j = i
    · rw [if_pos hj, hj, hv]
    · rw [if_neg hj]
  have pend2 : ∀ {w' : World S}, Grows k B w (p k) (q k) a.world w' →
      ∀ c, ∀ op ∈ a.pending c (q k), Alters k op → (∀ st, B (metaApi st op).2) ∧ B (w' (p k)) :=
    fun hw' c op ho ha => ⟨(h.pending2 c op ho ha).1, hw'.mp (h.pending2 c op ho ha).2⟩
  have ans : ∀ {w' : World S}, Grows k B w (p k) (q k) a.world w' →
      ∀ i o y, Spec.Wired.Answered tr i o (.ok y) → Alters k o → B (w' (p k)) ∧ B (w' (q k)) :=
    fun hw' i o y hy ha => ⟨hw'.mp (h.answered i o y hy ha).1, hw'.mq (h.answered i o y hy ha).2⟩
  have quiet : Grows k B w (p k) (q k) a.world a.world := .rfl' _
  have hlate : ∀ {c : Nat} {s : S} {l1 : List Op} {op : Op} {l2 : List Op} {w' : World S}, a.pending c s = l1 ++ op :: l2 →
      Unheard (fun _ => metaCall) s op a.world w' → Healthy a.world (carriedOut [Deed.late (M := Op) c s]) →
      ∃ cur', Durable H r p q k G B w (tr ++ seenOf [Deed.late (M := Op) c s])
        { a with world := w', pending := fun c' s' => if c' = c ∧ s' = s then l1 ++ l2 else a.pending c' s' } cur' := by
      intro c s l1 op l2 w' h1 h2 hh
      rw [show seenOf [Deed.late (S := S) (M := Op) c s] = [] from rfl, List.append_nil]
      have hh : Healthy a.world (0 + 1) := hh
      have hmem : op ∈ a.pending c s := by rw [h1]; exact List.mem_append_right _ (.head _)
      obtain ⟨hg, key, hk, hwhere⟩ := hgood c s op hmem
      have hw' := unheard_meta h2 (hh.1 s).1 (hg _)
      subst hw'
      have hgrow : Grows k B w (p k) (q k) a.world (World.update a.world s (metaApi (a.world s) op).2) := by
        by_cases ha : Alters k op
        · have : key = k := by have := ha.1; rw [hk] at this; injection this
          subst this
          rcases hwhere with rfl | rfl
          · rcases h.pending1 c op hmem ha (a.world (p key)) with hb | hb
            · exact grows_primary hne hb
            · exact grows_frame hw.lasting (by rw [hb]) (by rw [hb])
          · obtain ⟨hb, hb'⟩ := h.pending2 c op hmem ha
            exact grows_secondary hne (hb _) hb'
        · exact grows_harmless hw hk hg ha
      have sub : ∀ c' s', ∀ o ∈ (if c' = c ∧ s' = s then l1 ++ l2 else a.pending c' s'), o ∈ a.pending c' s' := by
        intro c' s' o ho
        by_cases hc : c' = c ∧ s' = s
        · rw [if_pos hc] at ho
          rw [hc.1, hc.2, h1]
          exact mem_around ho
        · rwa [if_neg hc] at ho
      exact ⟨cur, hgrow.pair h.pair, fun j => (h.each j).mono hgrow.mp hgrow.mq, fun c' o ho => h.pending1 c' o (sub _ _ o ho),
        fun c' o ho => pend2 hgrow c' o (sub _ _ o ho), h.under, ans hgrow⟩
  rcases hs.inv with hs | ⟨c, s, -, -, rfl, rfl⟩ | ⟨c, s, l1, op, l2, w', -, h1, h2, rfl, rfl⟩
  rotate_left
  · rw [show seenOf [Deed.mends (M := Op) c s] = [] from rfl, List.append_nil]
    exact ⟨cur, h.pair, h.each, h.pending1, h.pending2, h.under, h.answered⟩
  · exact hlate h1 h2 hh
  cases hs with
  | tick d =>
    have g := grows_tick (w := w) (p := p k) (q := q k) hw.lasting a.world d
    refine ⟨cur, g.pair h.pair, fun j => (h.each j).mono g.mp g.mq, h.pending1, pend2 g, fun i o hu => ?_, fun i o y hy ha => ?_⟩
    · rcases under_snoc hu with e | ⟨hu, -⟩
      · cases e
      · exact h.under i o hu
    · rcases answered_snoc hy with ⟨e, -⟩ | hy
      · cases e
      · exact ans g i o y hy ha
  | start i o h1 =>
    obtain ⟨hpl, hG⟩ := hd i o rfl
    have hi := h.each i
    rw [h1] at hi
    have hnone : a.result i = none := by
      generalize a.result i = u at hi
      generalize cur i = v at hi
      cases hi
      rfl
    refine ⟨fun j => if j = i then some o else cur j, h.pair, fun j => ?_, h.pending1, h.pending2, fun j o' hu => ?_, fun j o' y hy ha => ?_⟩
    · have := move quiet (i := i) (.called o hpl hG) j
      rwa [congrFun (same hnone) j] at this
    · rcases under_snoc hu with e | ⟨hu, -⟩
      · injection e with e1 e2
        subst e1 e2
        exact if_pos rfl
      · have := h.under j o' hu
        show (if j = i then some o else cur j) = some o'
        by_cases hj : j = i
        · subst hj
          rw [this] at hi
          cases hi
        · rw [if_neg hj]; exact this
    · rcases answered_snoc hy with ⟨e, -⟩ | hy
      · cases e
      · exact h.answered j o' y hy ha
  | finish i x h1 =>
    have hi := h.each i
    rw [h1] at hi
    have key : a.result i = none ∧ ∀ o, cur i = some o → Alters k o → Fine x → B (a.world (p k)) ∧ B (a.world (q k)) := by
      generalize hx : some (Prog.ret (S := S) x) = u at hi
      generalize a.result i = u at hi
      generalize cur i = v at hi
      cases hi with
      | none => cases hx
      | called o ho =>
        obtain ⟨k, f', e1, e2, -⟩ := stage_first hp hq ho
        rw [e2] at hx; cases hx
      | ran o st ho =>
        obtain ⟨k, f', e1, e2, -⟩ := stage_first hp hq ho
        rw [e2] at hx; cases hx
      | did o res pr ho hG hst hb1 hb2 =>
        injection hx with hx
        subst hx
        refine ⟨rfl, fun o' e ha hf => ?_⟩
        injection e with e
        subst e
        obtain ⟨y, rfl⟩ := hf
        refine ⟨?_, hb2 ha y rfl⟩
        cases hst with
        | ret => exact hb1 ha ⟨y, rfl⟩
      | known => cases hx
    refine ⟨fun j => if j = i then none else cur j, h.pair, fun j => ?_, h.pending1, h.pending2, fun j o' hu => ?_, fun j o' y hy ha => ?_⟩
    · have := move quiet (i := i) .none j
      rwa [congrFun (same key.1) j] at this
    · rcases under_snoc hu with e | ⟨hu, hn⟩
      · cases e
      · show (if j = i then none else cur j) = some o'
        rw [if_neg (by rintro rfl; exact hn _ rfl)]
        exact h.under j o' hu
    · rcases answered_snoc hy with ⟨e, hu⟩ | hy
      · injection e with e1 e2
        subst e1 e2
        exact key.2 o' (h.under _ _ hu) ha ⟨y, rfl⟩
      · exact h.answered j o' y hy ha
  | breaks c s =>
    rw [show seenOf [Deed.breaks (M := Op) c s] = [] from rfl, List.append_nil]
    exact ⟨cur, h.pair, h.each, h.pending1, h.pending2, h.under, h.answered⟩
  | run i s op f h1 h2 =>
    rw [show seenOf [Deed.run (S := S) (M := Op) i] = [] from rfl, List.append_nil]
    have hi := h.each i
    rw [h1, h2] at hi
    have hh : Healthy a.world (0 + 1) := hh
    generalize hx : some (Prog.call s op f) = u at hi
    generalize hz : cur i = v at hi
    generalize hv : (none : Option (Res Out)) = y at hi
    cases hi with
    | none => cases hx
    | ran => cases hv
    | known => cases hv
    | called o ho hG =>
      obtain ⟨key, f', hk, e2, hg, hst⟩ := stage_first hp hq ho
      rw [e2] at hx
      injection hx with hx
      injection hx with c1 c2 c3
      subst c1 c2 c3
      have hcall := callStep_meta (p key) op a.world (hh.1 _).1 (hg _)
      have hgrow : Grows k B w (p k) (q k) a.world (World.update a.world (p key) (metaApi (a.world (p key)) op).2)
          ∧ (Alters k op → Fine (metaApi (a.world (p key)) op).1 → B (World.update a.world (p key) (metaApi (a.world (p key)) op).2 (p k))) := by
        by_cases ha : Alters k op
        · have : key = k := by have := ha.1; rw [hk] at this; injection this
          subst this
          rcases hw.first op hG ha (a.world (p key)) with ⟨-, hb⟩ | ⟨hn, hb⟩
          · exact ⟨grows_primary hne hb, fun _ _ => by rw [update_self]; exact hb⟩
          · exact ⟨grows_frame hw.lasting (by rw [hb]) (by rw [hb]), fun _ hf => absurd hf hn⟩
        · exact ⟨grows_harmless hw hk hg ha, fun ha' => absurd ha' ha⟩
      have e : callOn (fun _ => metaCall) (p key) op some a.world = _ := (meta_callOn _ _ _).trans hcall
      refine ⟨cur, ?_, fun j => ?_, h.pending1, ?_, h.under, ?_⟩
      · show Pair k B w (p k) (q k) (callOn (fun _ => metaCall) (p key) op some a.world).2
        rw [e]; exact hgrow.1.pair h.pair
      · show Doing1 H r p q k G (B ((callOn (fun _ => metaCall) (p key) op some a.world).2 (p k))) (B ((callOn (fun _ => metaCall) (p key) op some a.world).2 (q k))) (cur j) (a.prog j)
          (if j = i then some (callOn (fun _ => metaCall) (p key) op some a.world).1 else a.result j)
        rw [e]
        have := move hgrow.1 (i := i) (.ran op (a.world (p key)) ho hG hgrow.2) j
        rw [e2] at this
        rwa [congrFun (same h1) j, congrFun (same hz) j] at this
      · show ∀ c, ∀ o ∈ a.pending c (q k), Alters k o → (∀ st, B (metaApi st o).2) ∧ B ((callOn (fun _ => metaCall) (p key) op some a.world).2 (p k))
        rw [e]; exact pend2 hgrow.1
      · show ∀ i o y, Spec.Wired.Answered tr i o (.ok y) → Alters k o → B ((callOn (fun _ => metaCall) (p key) op some a.world).2 (p k)) ∧ B ((callOn (fun _ => metaCall) (p key) op some a.world).2 (q k))
        rw [e]; exact ans hgrow.1
    | did o res pr ho hG hst hb1 hb2 =>
      injection hx with hx
      subst hx
      obtain ⟨key, k1, k2, k3, k4, k5⟩ := stage_where hst
      have hg := fun st => (stage_good hst st).1
      have hcall := callStep_meta s op a.world (hh.1 _).1 (hg _)
      obtain ⟨g1, -, -⟩ := stage_step hpq hst hh
      have hgrow : Grows k B w (p k) (q k) a.world (World.update a.world s (metaApi (a.world s) op).2)
          ∧ (Alters k o → B (World.update a.world s (metaApi (a.world s) op).2 (q k))) := by
        by_cases ha : Alters k o
        · obtain ⟨rfl, c2, c3⟩ := stage_alters hst hw hG ha
          have hb := hw.second o op hG ha c2 (a.world (q k))
          exact ⟨grows_secondary hne hb (hb1 ha c3), fun _ => by rw [update_self]; exact hb⟩
        · exact ⟨grows_harmless hw k2 hg (stage_harmless hst ha), fun ha' => absurd ha' ha⟩
      have e : callOn (fun _ => metaCall) s op some a.world = _ := (meta_callOn _ _ _).trans hcall
      rw [hcall] at g1
      refine ⟨cur, ?_, fun j => ?_, h.pending1, ?_, h.under, ?_⟩
      · show Pair k B w (p k) (q k) (callOn (fun _ => metaCall) s op some a.world).2
        rw [e]; exact hgrow.1.pair h.pair
      · show Doing1 H r p q k G (B ((callOn (fun _ => metaCall) s op some a.world).2 (p k))) (B ((callOn (fun _ => metaCall) s op some a.world).2 (q k))) (cur j) (a.prog j)
          (if j = i then some (callOn (fun _ => metaCall) s op some a.world).1 else a.result j)
        rw [e]
        have := move hgrow.1 (i := i) (.known o res s op f _ ho hG hst g1 (fun a b => hgrow.1.mp (hb1 a b)) hgrow.2) j
        rwa [congrFun (same h1) j, congrFun (same hz) j] at this
      · show ∀ c, ∀ o ∈ a.pending c (q k), Alters k o → (∀ st, B (metaApi st o).2) ∧ B ((callOn (fun _ => metaCall) s op some a.world).2 (p k))
        rw [e]; exact pend2 hgrow.1
      · show ∀ i o y, Spec.Wired.Answered tr i o (.ok y) → Alters k o → B ((callOn (fun _ => metaCall) s op some a.world).2 (p k)) ∧ B ((callOn (fun _ => metaCall) s op some a.world).2 (q k))
        rw [e]; exact ans hgrow.1
  | learn i s op f x h1 h2 =>
    rw [show seenOf [Deed.learn (S := S) (M := Op) i] = [] from rfl, List.append_nil]
    have hi := h.each i
    rw [h1, h2] at hi
    have key : Doing1 H r p q k G (B (a.world (p k))) (B (a.world (q k))) (cur i) (some (f x)) none := by
      generalize hx : some (Prog.call s op f) = u at hi
      generalize hv : some x = y at hi
      generalize cur i = v at hi
      cases hi with
      | none => cases hx
      | called => cases hv
      | did => cases hv
      | ran o st ho hG hb =>
        obtain ⟨key, f', hk, e2, hg, hst⟩ := stage_first hp hq ho
        rw [e2] at hx
        injection hx with hx
        injection hx with c1 c2 c3
        injection hv with hv
        subst c1 c2 c3 hv
        refine .did op _ _ ho hG (hst _) hb fun ha y hy => ?_
        exact absurd hy (first_calls hp hq ha.2 e2 _ y)
      | known o res s' op' f' x' ho hG hst hst' hb1 hb2 =>
        injection hx with hx
        injection hx with c1 c2 c3
        injection hv with hv
        subst c1 c2 c3 hv
        exact .did o res _ ho hG hst' hb1 fun ha _ _ => hb2 ha
    refine ⟨cur, h.pair, fun j => ?_, h.pending1, h.pending2, h.under, h.answered⟩
    have := move quiet (i := i) key j
    rwa [congrFun (same rfl) j] at this
  | lose i s op f x h1 h2 h3 =>
    rw [show seenOf [Deed.lose (S := S) (M := Op) i] = [] from rfl, List.append_nil]
    have hi := h.each i
    rw [h1, h2] at hi
    have key : ∃ o, cur i = some o ∧ PlainOp o ∧ G o ∧ f (.err .io) = .ret (.err .io) := by
      generalize hx : some (Prog.call s op f) = u at hi
      generalize hv : some x = y at hi
      generalize cur i = v at hi
      cases hi with
      | none => cases hx
      | called => cases hv
      | did => cases hv
      | ran o st ho hG hb =>
        injection hx with hx
        exact ⟨o, rfl, ho, hG, first_err (e := .io) hp hx.symm⟩
      | known o res s' op' f' x' ho hG hst hst' =>
        injection hx with hx
        injection hx with c1 c2 c3
        subst c1 c2 c3
        exact ⟨o, rfl, ho, hG, stage_err hst _⟩
    obtain ⟨o, e1, ho, hG, e3⟩ := key
    refine ⟨cur, h.pair, fun j => ?_, h.pending1, h.pending2, h.under, h.answered⟩
    have := move quiet (i := i) (.did o (.err .io) _ ho hG .ret (fun _ hf => by obtain ⟨y, hf⟩ := hf; cases hf) fun _ y hy => by cases hy) j
    rw [congrFun (same e1) j] at this
    show Doing1 H r p q k G _ _ (cur j) (if j = i then some (f (.err .io)) else a.prog j) _
    rw [e3]
    exact this
  | fail i s op f h1 h2 h3 =>
    rw [show seenOf [Deed.fail (S := S) (M := Op) i] = [] from rfl, List.append_nil]
    have hi := h.each i
    rw [h1, h2] at hi
    have key : ∃ o, cur i = some o ∧ PlainOp o ∧ G o ∧ f (.err .io) = .ret (.err .io)
        ∧ (s = p k → Alters k op → ∀ st, B (metaApi st op).2 ∨ (metaApi st op).2 = st)
        ∧ (s = q k → Alters k op → (∀ st, B (metaApi st op).2) ∧ B (a.world (p k))) := by
      generalize hx : some (Prog.call s op f) = u at hi
      generalize cur i = v at hi
      generalize hv : (none : Option (Res Out)) = y at hi
      cases hi with
      | none => cases hx
      | ran => cases hv
      | known => cases hv
      | called o ho hG =>
        obtain ⟨key, f', hk, e2, hg, hst⟩ := stage_first hp hq ho
        injection hx with hx
        have hf := first_err (e := .io) hp hx.symm
        rw [e2] at hx
        injection hx with c1 c2 c3
        subst c1 c2 c3
        exact ⟨op, rfl, ho, hG, hf, fun _ ha st => (hw.first op hG ha st).imp And.right And.right, fun e => absurd e (hpq _ _)⟩
      | did o res pr ho hG hst hb1 hb2 =>
        injection hx with hx
        subst hx
        refine ⟨o, rfl, ho, hG, stage_err hst _, fun e ha => ?_, fun e ha => ?_⟩
        · have hao : Alters k o := Classical.byContradiction fun hn => stage_harmless hst hn ha
          obtain ⟨c1, -⟩ := stage_alters hst hw hG hao
          exact absurd (e.symm.trans c1) hne
        · have hao : Alters k o := Classical.byContradiction fun hn => stage_harmless hst hn ha
          obtain ⟨-, c2, c3⟩ := stage_alters hst hw hG hao
          exact ⟨hw.second o op hG hao c2, hb1 hao c3⟩
    obtain ⟨o, e1, ho, hG, e3, hp1, hp2⟩ := key
    refine ⟨cur, h.pair, fun j => ?_, fun c o' ho' => ?_, fun c o' ho' => ?_, h.under, h.answered⟩
    · have := move quiet (i := i) (.did o (.err .io) _ ho hG .ret (fun _ hf => by obtain ⟨y, hf⟩ := hf; cases hf) fun _ y hy => by cases hy) j
      rw [congrFun (same e1) j, congrFun (same h2) j] at this
      show Doing1 H r p q k G _ _ (cur j) (if j = i then some (f (.err .io)) else a.prog j) _
      rw [e3]
      exact this
    · have ho' : o' ∈ (if c = proc i ∧ p k = s then a.pending c (p k) ++ [op] else a.pending c (p k)) := ho'
      by_cases hc : c = proc i ∧ p k = s
      · rw [if_pos hc] at ho'
        rcases List.mem_append.1 ho' with ho' | ho'
        · exact h.pending1 c o' ho'
        · rw [List.mem_singleton.1 ho']; exact hp1 hc.2.symm
      · rw [if_neg hc] at ho'
        exact h.pending1 c o' ho'
    · have ho' : o' ∈ (if c = proc i ∧ q k = s then a.pending c (q k) ++ [op] else a.pending c (q k)) := ho'
      by_cases hc : c = proc i ∧ q k = s
      · rw [if_pos hc] at ho'
        rcases List.mem_append.1 ho' with ho' | ho'
        · exact h.pending2 c o' ho'
        · rw [List.mem_singleton.1 ho']; exact hp2 hc.2.symm
      · rw [if_neg hc] at ho'
        exact h.pending2 c o' ho'
  | late c s op ops w' h1 h2 => exact hlate (l1 := []) h1 h2 hh

theorem durable_run {again : Bool} (hp : ∀ k, r.primary.pick H k = .ok (p k)) (hq : ∀ k, r.secondary.pick H k = .ok (q k)) (hpq : ∀ k k', p k ≠ q k')
    (hw : Works1 k G B) {w : World S} {l : List (Deed S Op)} {a : Shaky S}
    (hl : AgainRun again (fun _ => metaCall) (replicaProg H r) proc (Shaky.start w) l a)
    (hk : ∀ i o, (i, o) ∈ Spec.Wired.starts (seenOf l) → PlainOp o ∧ G o) (hh : Healthy w (carriedOut l)) :
    ∃ cur, Durable H r p q k G B w (seenOf l) a cur := by
  induction hl with
  | nil =>
    refine ⟨fun _ => none, ⟨.inl rfl, .inl rfl⟩, fun _ => .none, fun _ _ h => (by cases h), fun _ _ h => (by cases h), fun i o hu => ?_, fun i o y hy => ?_⟩
    · obtain ⟨t1, t2, h, -⟩ := hu
      cases t1 <;> cases h
    · obtain ⟨t1, t2, h, -⟩ := hy
      cases t1 <;> cases h
  | @snoc l d a a' hl hs ih =>
    rw [carriedOut_append] at hh
    rw [seenOf_append, starts_append] at hk
    rw [seenOf_append]
    have hk' : ∀ i o, (i, o) ∈ Spec.Wired.starts (seenOf l) → PlainOp o ∧ G o := fun i o hm => hk i o (List.mem_append_left _ hm)
    obtain ⟨cur, h⟩ := ih hk' (healthy_mono hh (by omega))
    obtain ⟨-, z, -, -, -, -, g⟩ := torn_run hp hq hpq hl (fun i o hm => (hk' i o hm).1) (carriedOut [d]) (torn_start (by rw [Nat.add_comm]; exact hh))
    exact durable_step hp hq hpq hw h g.healthy g.good hs fun i o e => hk i o (by subst e; exact List.mem_append_right _ (.head _))

end
end Wired
end Verif
