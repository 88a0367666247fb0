import Verif.Props.WiredTorn
/-!
C87: what is read after a write has been acknowledged.
-/

namespace Verif
namespace Wired
open Kv Spec Mc Pool Cluster Props

variable {S : Type} [DecidableEq S]

section
variable {H : Hashes} {r : ReplicaPool S} {p q : Bytes → S} {proc : Nat → Nat} {k : Bytes} {G : Op → Prop} {B : Store → Prop} {w : World S}

/-- A Get of `k` that was called after a change had been acknowledged, and has not returned. -/
def Reading (tr : List (Ev Op)) (k : Bytes) (j : Nat) : Prop :=
  ∃ t1 t2, tr = t1 ++ .start j (.get k) :: t2 ∧ (∀ r', .finish j r' ∉ t2) ∧ Spec.Wired.Changed t1 k

theorem reading_under {tr : List (Ev Op)} {j : Nat} (h : Reading tr k j) : Spec.Wired.Under tr j (.get k) := by
  obtain ⟨t1, t2, h1, h2, -⟩ := h
  exact ⟨t1, t2, h1, h2⟩

theorem reading_snoc {tr : List (Ev Op)} {e : Ev Op} {j : Nat} (h : Reading (tr ++ [e]) k j) :
    (e = .start j (.get k) ∧ Spec.Wired.Changed tr k) ∨ (Reading tr k j ∧ ∀ r, e ≠ .finish j r) := by
  obtain ⟨t1, t2, h1, h2, h3⟩ := h
  rcases snoc_split h1 with ⟨-, h4, h5⟩ | ⟨t2', rfl, h4⟩
  · exact .inl ⟨h4.symm, by rw [← h5]; exact h3⟩
  · exact .inr ⟨⟨t1, t2', h4, fun r hr => h2 r (List.mem_append_left _ hr), h3⟩, fun r he => h2 r (List.mem_append_right _ (by rw [he]; exact .head _))⟩

theorem readAfter_snoc {tr : List (Ev Op)} {e : Ev Op} {r : Res Out} (h : Spec.Wired.ReadAfter (tr ++ [e]) k r) :
    (∃ j, e = .finish j r ∧ Reading tr k j) ∨ Spec.Wired.ReadAfter tr k r := by
  obtain ⟨t1, t2, t3, j, h1, h2, h3⟩ := h
  rcases snoc_split h1 with ⟨-, h4, h5⟩ | ⟨t2', rfl, h4⟩
  · exact .inl ⟨j, h4.symm, t1, t2, h5.symm, h2, h3⟩
  · exact .inr ⟨t1, t2, t2', j, h4, h2, h3⟩

/-- A result of Get of `k` from a server of which `B` holds, or a connection error. -/
def Reads (k : Bytes) (B : Store → Prop) (r : Res Out) : Prop := r = .err .io ∨ ∃ st, B st ∧ r = (metaApi st (.get k)).1

/-- The invariant. -/
structure Recent (p : Bytes → S) (k : Bytes) (G : Op → Prop) (B : Store → Prop) (tr : List (Ev Op)) (z : Torn S) : Prop where
  each : ∀ i o v, z.calls i = some (o, v) → G o
  drift : ∀ c s, ∀ o ∈ z.adrift c s, G o
  fine : ∀ i o y, z.calls i = some (o, some (.ok y)) → Alters k o → B (z.world (p k))
  under : ∀ i o, Spec.Wired.Under tr i o → ∃ v, z.calls i = some (o, v)
  acked : Spec.Wired.Changed tr k → B (z.world (p k))
  reading : ∀ j, Reading tr k j → ∀ res, z.calls j = some (.get k, some res) → Reads k B res
  read : ∀ r, Spec.Wired.ReadAfter tr k r → Reads k B r

theorem plain_good {o : Op} (h : PlainOp o) (st : Store) : GoodMetaOp st o := by
  cases o <;> first | exact h | exact h.1 | exact h.elim

/-- `B` stays. -/
theorem stays (hw : Works1 k G B) (hp : ∀ o, G o → PlainOp o) {w1 : World S} {o : Op} (hG : G o) (hB : B (w1 (p k))) :
    B ((atOnce p w1 o).2 (p k)) := by
  unfold atOnce
  cases hk : o.key? with
  | none => exact hB
  | some k' =>
    show B (World.update w1 (p k') (metaApi (w1 (p k')) o).2 (p k))
    by_cases hs : p k = p k'
    · rw [← hs, update_self]
      by_cases ha : Alters k o
      · rcases hw.first o hG ha (w1 (p k)) with h | h
        · exact h.2
        · rw [h.2]; exact hB
      · obtain ⟨h1, h2⟩ := op_frame (k := k) hk (plain_good (hp o hG) (w1 (p k))) (by
          by_cases e : k' = k
          · subst e
            refine .inr ?_
            cases hc : changing o with
            | false => rfl
            | true => exact absurd ⟨hk, hc⟩ ha
          · exact .inl e) (w1 (p k))
        exact hw.lasting.frame _ _ h1 h2 hB
    · rw [update_ne _ _ hs]; exact hB


theorem same_call {z : Torn S} {i : Nat} {o o' : Op} {u v : Option (Res Out)} (h : z.calls i = some (o, u)) (h' : z.calls i = some (o', v)) :
    o' = o ∧ v = u := by
  rw [h] at h'
  injection h' with h'
  injection h' with h1 h2
  exact ⟨h1.symm, h2.symm⟩

theorem recent_step {again : Bool} (hw : Works1 k G B) (hp : ∀ o, G o → PlainOp o) {tr : List (Ev Op)} {z z' : Torn S} {d : Deed S Op} (h : Recent p k G B tr z)
    (hs : TornStep again p q proc z d z') (hd : ∀ i o, d = .ev (.start i o) → G o) : Recent p k G B (tr ++ seenOf [d]) z' := by
  -- goroutine `i` gets a result, the primaries change
  have move : ∀ {w' : World S} {i : Nat} {o : Op} {u : Option (Res Out)} {v : Res Out} {b : Nat → S → Prop} {ad : Nat → S → List Op},
      z.calls i = some (o, u) → (B (z.world (p k)) → B (w' (p k))) →
      (∀ y, v = .ok y → Alters k o → B (w' (p k))) → (∀ c s, ∀ o ∈ ad c s, G o) →
      (o = .get k → Reading tr k i → Reads k B v) →
      Recent p k G B tr ⟨w', fun j => if j = i then some (o, some v) else z.calls j, b, ad⟩ := by
    intro w' i o u v b ad hi hB hv had hr
    refine ⟨fun j o' v' hj => ?_, had, fun j o' y hj ha => ?_, fun j o' hu => ?_, fun hc => hB (h.acked hc), fun j hj res hres => ?_, h.read⟩
    · by_cases e : j = i
      · subst e
        simp only [if_pos] at hj
        injection hj with hj
        injection hj with e1 e2
        subst e1
        exact h.each _ _ _ hi
      · exact h.each _ _ _ (by simpa only [if_neg e] using hj)
    · by_cases e : j = i
      · subst e
        simp only [if_pos] at hj
        injection hj with hj
        injection hj with e1 e2
        injection e2 with e2
        subst e1
        exact hv y e2 ha
      · exact hB (h.fine _ _ _ (by simpa only [if_neg e] using hj) ha)
    · obtain ⟨v', hv'⟩ := h.under j o' hu
      by_cases e : j = i
      · subst e
        obtain ⟨rfl, -⟩ := same_call hi hv'
        exact ⟨some v, if_pos rfl⟩
      · exact ⟨v', by simpa only [if_neg e] using hv'⟩
    · by_cases e : j = i
      · subst e
        simp only [if_pos] at hres
        injection hres with hres
        injection hres with e1 e2
        injection e2 with e2
        subst e2
        exact hr e1 hj
      · exact h.reading j hj res (by simpa only [if_neg e] using hres)
  cases hs with
  | tick d =>
    have hc : Spec.Wired.Changed (tr ++ [.tick d]) k → Spec.Wired.Changed tr k := by
      rintro ⟨i, o, y, g1, g2⟩
      rcases answered_snoc g1 with ⟨g, -⟩ | g
      · cases g
      · exact ⟨i, o, y, g, g2⟩
    refine ⟨h.each, h.drift, fun i o y hi ha => hw.lasting.tick _ _ (h.fine i o y hi ha), fun i o hu => ?_, fun g => hw.lasting.tick _ _ (h.acked (hc g)),
      fun j hj => ?_, fun r hr => ?_⟩
    · rcases under_snoc hu with g | g
      · cases g
      · exact h.under i o g.1
    · rcases reading_snoc hj with g | g
      · cases g.1
      · exact h.reading j g.1
    · rcases readAfter_snoc hr with ⟨j, g, -⟩ | g
      · cases g
      · exact h.read r g
  | start i o hi =>
    have hc : Spec.Wired.Changed (tr ++ [.start i o]) k → Spec.Wired.Changed tr k := by
      rintro ⟨i, o, y, g1, g2⟩
      rcases answered_snoc g1 with ⟨g, -⟩ | g
      · cases g
      · exact ⟨i, o, y, g, g2⟩
    refine ⟨fun j o' v hj => ?_, h.drift, fun j o' y hj ha => ?_, fun j o' hu => ?_, fun g => h.acked (hc g), fun j hj res hres => ?_, fun r hr => ?_⟩
    · by_cases e : j = i
      · subst e
        simp only [if_pos] at hj
        injection hj with hj
        injection hj with e1 e2
        subst e1
        exact hd _ _ rfl
      · exact h.each _ _ _ (by simpa only [if_neg e] using hj)
    · by_cases e : j = i
      · subst e
        simp only [if_pos] at hj
        injection hj with hj
        injection hj with e1 e2
        cases e2
      · exact h.fine j o' y (by simpa only [if_neg e] using hj) ha
    · by_cases e : j = i
      · subst e
        rcases under_snoc hu with g | g
        · injection g with g1 g2
          subst g2
          exact ⟨none, if_pos rfl⟩
        · obtain ⟨v, hv⟩ := h.under j o' g.1
          rw [hi] at hv; cases hv
      · rcases under_snoc hu with g | g
        · injection g with g1 g2
          exact absurd g1.symm e
        · obtain ⟨v, hv⟩ := h.under j o' g.1
          exact ⟨v, by simpa only [if_neg e] using hv⟩
    · by_cases e : j = i
      · subst e
        simp only [if_pos] at hres
        injection hres with hres
        injection hres with e1 e2
        cases e2
      · rcases reading_snoc hj with g | g
        · injection g.1 with g1 g2
          exact absurd g1.symm e
        · exact h.reading j g.1 res (by simpa only [if_neg e] using hres)
    · rcases readAfter_snoc hr with ⟨j, g, -⟩ | g
      · cases g
      · exact h.read r g
  | finish i o r hi =>
    have gone : ∀ {j : Nat} {x : Op × Option (Res Out)}, (if j = i then none else z.calls j) = some x → z.calls j = some x := by
      intro j x hj
      by_cases e : j = i
      · rw [if_pos e] at hj; cases hj
      · rwa [if_neg e] at hj
    refine ⟨fun j o' v hj => h.each j o' v (gone hj), h.drift, fun j o' y hj ha => h.fine j o' y (gone hj) ha, fun j o' hu => ?_, fun g => ?_,
      fun j hj res hres => ?_, fun r' hr => ?_⟩
    · rcases under_snoc hu with g | g
      · cases g
      · obtain ⟨v, hv⟩ := h.under j o' g.1
        exact ⟨v, by
          have : j ≠ i := fun e => g.2 r (by rw [e])
          simpa only [if_neg this] using hv⟩
    · obtain ⟨j, o', y, g1, g2⟩ := g
      rcases answered_snoc g1 with ⟨g, gu⟩ | g
      · injection g with e1 e2
        subst e1 e2
        obtain ⟨v, hv⟩ := h.under _ o' gu
        obtain ⟨rfl, -⟩ := same_call hi hv
        exact h.fine _ _ y hi g2
      · exact h.acked ⟨j, o', y, g, g2⟩
    · rcases reading_snoc hj with g | g
      · cases g.1
      · exact h.reading j g.1 res (gone hres)
    · rcases readAfter_snoc hr with ⟨j, g, gr⟩ | g
      · injection g with e1 e2
        subst e1 e2
        obtain ⟨v, hv⟩ := h.under _ _ (reading_under gr)
        obtain ⟨e1, -⟩ := same_call hi hv
        subst e1
        exact h.reading _ gr _ hi
      · exact h.read r' g
  | breaks c s =>
    rw [show seenOf [Deed.breaks c s] = ([] : List (Ev Op)) from rfl, List.append_nil]
    exact ⟨h.each, h.drift, h.fine, h.under, h.acked, h.reading, h.read⟩
  | mends c s =>
    rw [show seenOf [Deed.mends c s] = ([] : List (Ev Op)) from rfl, List.append_nil]
    exact ⟨h.each, h.drift, h.fine, h.under, h.acked, h.reading, h.read⟩
  | run i o hi =>
    rw [show seenOf [Deed.run i] = ([] : List (Ev Op)) from rfl, List.append_nil]
    have hG := h.each _ _ _ hi
    refine move hi (stays hw hp hG) (fun y hy ha => ?_) h.drift (fun ho hr => ?_)
    · rw [atOnce_eq ha.1] at hy ⊢
      show B (World.update _ _ _ _)
      rw [update_self]
      rcases hw.first o hG ha (z.world (p k)) with g | g
      · exact g.2
      · exact absurd ⟨y, hy⟩ g.1
    · subst ho
      obtain ⟨t1, t2, rfl, g2, i', o', y, g3, g4⟩ := hr
      obtain ⟨t3, t4, rfl, g5⟩ := g3
      exact .inr ⟨_, h.acked ⟨i', o', y, ⟨t3, _, List.append_assoc _ _ _, g5⟩, g4⟩, rfl⟩
  | lose i o k' res hi hk' hb =>
    rw [show seenOf [Deed.lose i] = ([] : List (Ev Op)) from rfl, List.append_nil]
    exact move hi id (fun y hy => by cases hy) h.drift fun _ _ => .inl rfl
  | misses i o k' n hi hk' har =>
    rw [show seenOf [Deed.lose i] = ([] : List (Ev Op)) from rfl, List.append_nil]
    exact move hi id (fun y hy => by cases hy) h.drift fun e => by subst e; exact har.elim
  | fail i o k' hi hk' hb =>
    rw [show seenOf [Deed.fail i] = ([] : List (Ev Op)) from rfl, List.append_nil]
    refine move hi id (fun y hy => by cases hy) (fun c s o' ho' => ?_) fun _ _ => .inl rfl
    by_cases e : c = proc i ∧ s = p k'
    · rw [if_pos e] at ho'
      rcases List.mem_append.1 ho' with ho' | ho'
      · exact h.drift c s o' ho'
      · have := List.mem_singleton.1 (List.mem_filter.1 ho').1
        rw [this]; exact h.each _ _ _ hi
    · rw [if_neg e] at ho'
      exact h.drift c s o' ho'
  | late c s o l1 l2 ha =>
    rw [show seenOf [Deed.late c s] = ([] : List (Ev Op)) from rfl, List.append_nil]
    have hG : G o := h.drift c s o (by rw [ha]; exact List.mem_append_right _ (.head _))
    have hB : B (z.world (p k)) → B ((atOnce p z.world o).2 (p k)) := stays hw hp hG
    refine ⟨h.each, fun c' s' o' ho' => ?_, fun i o y hi hal => hB (h.fine i o y hi hal), h.under, fun g => hB (h.acked g), h.reading, h.read⟩
    by_cases e : c' = c ∧ s' = s
    · simp only [if_pos e] at ho'
      exact h.drift c s o' (by rw [ha]; exact mem_around ho')
    · simp only [if_neg e] at ho'
      exact h.drift c' s' o' ho'

theorem recent_run {again : Bool} (hw : Works1 k G B) (hp : ∀ o, G o → PlainOp o) {l : List (Deed S Op)} {z : Torn S} (h : TornRun again p q proc (Torn.start w) l z)
    (hd : ∀ i o, Ev.start i o ∈ seenOf l → G o) : Recent p k G B (seenOf l) z := by
  induction h with
  | nil =>
    have no : ∀ {α : Type} {a b : List α} {x : α}, [] ≠ a ++ x :: b := by intro α a b x h; cases a <;> cases h
    refine ⟨fun _ _ _ h => (by cases h), fun _ _ _ h => (by cases h), fun _ _ _ h => (by cases h), ?_, ?_, ?_, ?_⟩
    · rintro i o ⟨t1, t2, h, -⟩; exact absurd h no
    · rintro ⟨i, o, y, ⟨t1, t2, h, -⟩, -⟩; exact absurd h no
    · rintro j ⟨t1, t2, h, -⟩; exact absurd h no
    · rintro r ⟨t1, t2, t3, j, h, -⟩; exact absurd h no
  | @snoc l d z z' _ hs ih =>
    rw [seenOf_append]
    rw [seenOf_append] at hd
    exact recent_step hw hp (ih fun i o h => hd i o (List.mem_append_left _ h)) hs fun i o e =>
      hd i o (List.mem_append_right _ (by rw [e]; exact .head _))

end

section
variable {U : Setup S Op} {H : Hashes} {name : S → Bytes} {ps qs : List S} {r : ReplicaPool S} {p q : Bytes → S}
    {w : World S} {tr : List (Ev Op)} {x : State S}

/-- Whoever reads from a server that holds what a call has left gets that. -/
theorem reads_one {tr : List (Ev Op)} {k : Bytes} {res : Res Out} (h : Reads k (Spec.Wired.ByCall tr k) res) :
    res = .err .io ∨ Spec.Wired.OneOfThese tr k res := by
  rcases h with h | ⟨st, ⟨i, o, g1, g2, g3, g4⟩, rfl⟩
  · exact .inl h
  · refine .inr ?_
    rcases g4 with ⟨it, e, e1, e2, e3, e4, e5⟩ | ⟨rfl, e2⟩
    · refine .inl ⟨metaItem st.now k e, i, o, it, ?_, g1, g2, e1, rfl, e3, ?_⟩
      · simp only [metaApi, e2]
      · show some (putBE 4 e.flags) = _
        rw [e4]
    · refine .inr ⟨?_, i, g1⟩
      simp only [metaApi, e2]

/-- **C87**: once a call that changes key `k` has returned without an error to any process, every Get of `k` called
later by any process gets a value that one of the calls has given, or, if `k` was deleted by one, ItemNotFound; or a
connection error.  Never what was there at first. -/
theorem C87_read_after (c : TornUse U H name ps qs r p q w tr x) {k : Bytes}
    (ho : ∀ i o, Ev.start i o ∈ tr → o.key? = some k → changing o = true → KeepsOrDrops k o) {res : Res Out}
    (hr : Spec.Wired.ReadAfter tr k res) : res = .err .io ∨ Spec.Wired.OneOfThese tr k res := by
  obtain ⟨l, z, h1, h2, -⟩ := C87_pool c
  exact reads_one ((recent_run (works1 c.kinds ho) (fun o ⟨i, hi⟩ => c.kinds i o hi) h1 (fun i o hi => ⟨i, by rwa [h2] at hi⟩)).read res
    (by rw [h2]; exact hr))

/-! ### Results -/

theorem result_run {again : Bool} {proc : Nat → Nat} {l : List (Deed S Op)} {z : Torn S} (h : TornRun again p q proc (Torn.start w) l z)
    (hd : ∀ i o, Ev.start i o ∈ seenOf l → ∃ k, o.key? = some k) :
    (∀ i o, Spec.Wired.Under (seenOf l) i o → ∃ v, z.calls i = some (o, v))
      ∧ (∀ i o v, z.calls i = some (o, v) → ∃ k, o.key? = some k)
      ∧ (∀ i o res, z.calls i = some (o, some res) → res = .err .io ∨ ∃ st, Returns o (metaApi st o).1 res)
      ∧ ∀ i o res, Spec.Wired.Answered (seenOf l) i o res → res = .err .io ∨ ∃ st, Returns o (metaApi st o).1 res := by
  induction h with
  | nil =>
    have no : ∀ {α : Type} {a b : List α} {x : α}, [] ≠ a ++ x :: b := by intro α a b x h; cases a <;> cases h
    refine ⟨?_, fun _ _ _ h => (by cases h), fun _ _ _ h => (by cases h), ?_⟩
    · rintro i o ⟨t1, t2, h, -⟩; exact absurd h no
    · rintro i o r ⟨t1, t2, h, -⟩; exact absurd h no
  | @snoc l d z z' _ hs ih =>
    rw [seenOf_append]
    rw [seenOf_append] at hd
    obtain ⟨h1, h4, h2, h3⟩ := ih fun i o h => hd i o (List.mem_append_left _ h)
    have move : ∀ {i : Nat} {o : Op} {u : Option (Res Out)} {v : Res Out}, z.calls i = some (o, u) → (v = .err .io ∨ ∃ st, Returns o (metaApi st o).1 v) →
        (∀ i' o', Spec.Wired.Under (seenOf l) i' o' → ∃ v', (if i' = i then some (o, some v) else z.calls i') = some (o', v'))
          ∧ (∀ i' o' v', (if i' = i then some (o, some v) else z.calls i') = some (o', v') → ∃ k, o'.key? = some k)
          ∧ ∀ i' o' res, (if i' = i then some (o, some v) else z.calls i') = some (o', some res) → res = .err .io ∨ ∃ st, Returns o' (metaApi st o').1 res := by
      intro i o u v hi hv
      refine ⟨fun j o' hu => ?_, fun j o' v' hj => ?_, fun j o' res hj => ?_⟩
      · obtain ⟨v', hv'⟩ := h1 j o' hu
        by_cases e : j = i
        · subst e
          obtain ⟨rfl, -⟩ := same_call hi hv'
          exact ⟨some v, if_pos rfl⟩
        · exact ⟨v', by rwa [if_neg e]⟩
      · by_cases e : j = i
        · subst e
          rw [if_pos rfl] at hj
          injection hj with hj
          injection hj with e1 e2
          subst e1
          exact h4 _ _ _ hi
        · rw [if_neg e] at hj; exact h4 _ _ _ hj
      · by_cases e : j = i
        · subst e
          rw [if_pos rfl] at hj
          injection hj with hj
          injection hj with e1 e2
          injection e2 with e2
          subst e1 e2
          exact hv
        · rw [if_neg e] at hj; exact h2 _ _ _ hj
    cases hs with
    | tick d =>
      refine ⟨fun i o hu => ?_, h4, h2, fun i o res hr => ?_⟩
      · rcases under_snoc hu with g | g
        · cases g
        · exact h1 i o g.1
      · rcases answered_snoc hr with ⟨g, -⟩ | g
        · cases g
        · exact h3 i o res g
    | start i o hi =>
      refine ⟨fun j o' hu => ?_, fun j o' v hj => ?_, fun j o' res hj => ?_, fun j o' res hr => ?_⟩
      · by_cases e : j = i
        · subst e
          rcases under_snoc hu with g | g
          · injection g with g1 g2
            subst g2
            exact ⟨none, if_pos rfl⟩
          · obtain ⟨v, hv⟩ := h1 j o' g.1
            rw [hi] at hv; cases hv
        · rcases under_snoc hu with g | g
          · injection g with g1 g2
            exact absurd g1.symm e
          · obtain ⟨v, hv⟩ := h1 j o' g.1
            exact ⟨v, by simpa only [if_neg e] using hv⟩
      · by_cases e : j = i
        · subst e
          simp only [if_pos] at hj
          injection hj with hj
          injection hj with e1 e2
          subst e1
          exact hd _ _ (List.mem_append_right _ (.head _))
        · exact h4 _ _ _ (by simpa only [if_neg e] using hj)
      · by_cases e : j = i
        · subst e
          simp only [if_pos] at hj
          injection hj with hj
          injection hj with e1 e2
          cases e2
        · exact h2 _ _ _ (by simpa only [if_neg e] using hj)
      · rcases answered_snoc hr with ⟨g, -⟩ | g
        · cases g
        · exact h3 j o' res g
    | finish i o r hi =>
      have gone : ∀ {j : Nat} {x : Op × Option (Res Out)}, (if j = i then none else z.calls j) = some x → z.calls j = some x := by
        intro j x hj
        by_cases e : j = i
        · rw [if_pos e] at hj; cases hj
        · rwa [if_neg e] at hj
      refine ⟨fun j o' hu => ?_, fun j o' v hj => h4 _ _ _ (gone hj), fun j o' res hj => h2 _ _ _ (gone hj), fun j o' res' hr => ?_⟩
      · rcases under_snoc hu with g | g
        · cases g
        · obtain ⟨v, hv⟩ := h1 j o' g.1
          exact ⟨v, by
            have : j ≠ i := fun e => g.2 r (by rw [e])
            simpa only [if_neg this] using hv⟩
      · rcases answered_snoc hr with ⟨g, gu⟩ | g
        · injection g with e1 e2
          subst e1 e2
          obtain ⟨v, hv⟩ := h1 _ o' gu
          obtain ⟨rfl, -⟩ := same_call hi hv
          exact h2 _ _ _ hi
        · exact h3 _ _ _ g
    | breaks c s =>
      rw [show seenOf [Deed.breaks c s] = ([] : List (Ev Op)) from rfl, List.append_nil]
      exact ⟨h1, h4, h2, h3⟩
    | run i o hi =>
      rw [show seenOf [Deed.run i] = ([] : List (Ev Op)) from rfl, List.append_nil]
      obtain ⟨k, hk⟩ := h4 _ _ _ hi
      obtain ⟨a, b, c⟩ := move hi (v := (atOnce p z.world o).1) (.inr ⟨z.world (p k), .inl (by rw [atOnce_eq hk])⟩)
      exact ⟨a, b, c, h3⟩
    | lose i o k' res hi hk' hb =>
      rw [show seenOf [Deed.lose i] = ([] : List (Ev Op)) from rfl, List.append_nil]
      obtain ⟨a, b, c⟩ := move hi (.inl rfl)
      exact ⟨a, b, c, h3⟩
    | misses i o k' n hi hk' har =>
      rw [show seenOf [Deed.lose i] = ([] : List (Ev Op)) from rfl, List.append_nil]
      obtain ⟨a, b, c⟩ := move hi (v := .err .itemNotFound) <| by
        rcases h2 _ _ _ hi with e | ⟨st, e | ⟨-, e, -⟩⟩
        · cases e
        · exact .inr ⟨st, .inr ⟨har, rfl, n, e.symm⟩⟩
        · cases e
      exact ⟨a, b, c, h3⟩
    | fail i o k' hi hk' hb =>
      rw [show seenOf [Deed.fail i] = ([] : List (Ev Op)) from rfl, List.append_nil]
      obtain ⟨a, b, c⟩ := move hi (.inl rfl)
      exact ⟨a, b, c, h3⟩
    | mends c s =>
      rw [show seenOf [Deed.mends c s] = ([] : List (Ev Op)) from rfl, List.append_nil]
      exact ⟨h1, h4, h2, h3⟩
    | late c s o l1 l2 ha =>
      rw [show seenOf [Deed.late c s] = ([] : List (Ev Op)) from rfl, List.append_nil]
      exact ⟨h1, h4, h2, h3⟩

theorem plain_key {o : Op} (h : PlainOp o) : ∃ k, o.key? = some k := by
  cases o <;> first | exact ⟨_, rfl⟩ | exact h.elim

/-- **C87**: a method returns what the memcached of its key answers in some state, or a connection error; Increment
and Decrement may return ItemNotFound although the key was there. -/
theorem C87_results (c : TornUse U H name ps qs r p q w tr x) {i : Nat} {o : Op} {res : Res Out} (hi : Spec.Wired.Answered tr i o res) :
    res = .err .io ∨ ∃ st, Returns o (metaApi st o).1 res := by
  obtain ⟨l, z, h1, h2, -⟩ := C87_pool c
  exact (result_run h1 (fun i o hi => plain_key (c.kinds i o (by rwa [h2] at hi)))).2.2.2 i o res (by rw [h2]; exact hi)

theorem finish_split (i : Nat) : ∀ t : List (Ev Op), (∀ r', .finish i r' ∉ t) ∨ ∃ t3 res t4, t = t3 ++ .finish i res :: t4 ∧ ∀ r', .finish i r' ∉ t3 := by
  intro t
  induction t with
  | nil => exact .inl fun _ h => (by cases h)
  | cons e t ih =>
    by_cases he : ∃ r', e = .finish i r'
    · obtain ⟨r', rfl⟩ := he
      exact .inr ⟨[], r', t, rfl, fun _ h => (by cases h)⟩
    · rcases ih with ih | ⟨t3, res, t4, rfl, h⟩
      · refine .inl fun r' h => ?_
        rcases List.mem_cons.1 h with h | h
        · exact he ⟨r', h.symm⟩
        · exact ih r' h
      · refine .inr ⟨e :: t3, res, t4, rfl, fun r' g => ?_⟩
        rcases List.mem_cons.1 g with g | g
        · exact he ⟨r', g.symm⟩
        · exact h r' g

/-- Who is back has been answered. -/
theorem answered_back (c : TornUse U H name ps qs r p q w tr x) (hx : Spec.Wired.AllBack x) {t1 t2 : List (Ev Op)} {i : Nat} {o : Op}
    (ht : tr = t1 ++ .start i o :: t2) : ∃ t3 res t4, t2 = t3 ++ .finish i res :: t4 ∧ ∀ r', .finish i r' ∉ t3 := by
  have hu : ¬ Spec.Wired.Under tr i o := by
    intro hu
    obtain ⟨l, z, h1, h2, -, -, h3⟩ := C87_pool c
    obtain ⟨v, hv⟩ := (result_run h1 (fun i o hi => plain_key (c.kinds i o (by rwa [h2] at hi)))).1 i o (by rw [h2]; exact hu)
    rw [(h3 i).2 (hx i)] at hv; cases hv
  rcases finish_split i t2 with h | h
  · exact absurd ⟨t1, t2, ht, h⟩ hu
  · exact h

end
end Wired
end Verif
