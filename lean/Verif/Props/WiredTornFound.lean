import Verif.Props.WiredTornUse
/-!
C87 and C88: a key that nobody removes is found.
-/

namespace Verif
namespace Wired
open Kv Spec Mc Pool Cluster Props

variable {S : Type} [DecidableEq S] {p q : Bytes → S} {proc : Nat → Nat} {again : Bool} {k : Bytes}

theorem stands_put (st : Store) (v : Bytes) (f : Nat) : Endures k (st.put k v f none) := ⟨_, put_at _ _ _ _ _, rfl⟩

theorem stands_store {st : Store} (h : Endures k st) {m : Mode} {v : Bytes} {f : Nat} : Endures k (st.store m k v f 0).2 := by
  have h1 : Endures k (st.put k v f (expiryOf st.now 0)) := stands_put st v f
  unfold Store.store
  dsimp only
  split
  all_goals first | exact h1 | exact h | (split <;> first | exact h1 | exact h)

/-- On memcached. -/
theorem retains_meta {o : Op} (hk : o.key? = some k) (hr : Retains o) {st : Store} (h : Endures k st) :
    Endures k (metaApi st o).2 ∧ (metaApi st o).1 ≠ .err .itemNotFound := by
  obtain ⟨e, h1, h2⟩ := h
  have hf := find_forever h1 h2
  have arith : ∀ up d, Endures k (arithApi st up k d).2 ∧ (arithApi st up k d).1 ≠ .err .itemNotFound := by
    intro up d
    unfold arithApi
    split
    · exact ⟨⟨e, h1, h2⟩, fun h => by cases h⟩
    · unfold Store.arith
      rw [hf]
      dsimp only
      cases counterOf e.value with
      | none => exact ⟨⟨e, h1, h2⟩, fun h => by cases h⟩
      | some n => exact ⟨⟨_, put_at _ _ _ _ _, h2⟩, fun h => by dsimp only [counted] at h; split at h <;> cases h⟩
  rcases hr with ⟨it, hs, hx⟩ | ⟨k', rfl⟩ | ⟨k', d, x, rfl⟩ | ⟨k', d, x, rfl⟩
  · have key : it.key = k := by
      cases o <;> first | (cases hs; cases hk; rfl) | cases hs
    subst key
    have hst : ∀ {m : Mode} {f : Nat}, Endures it.key (st.store m it.key it.value f it.expiration).2 := by
      rw [hx]; exact stands_store ⟨e, h1, h2⟩
    cases o with
    | set i =>
      cases hs
      simp only [metaApi]
      split
      · exact ⟨hst, fun h => by cases h⟩
      · exact ⟨hst, fun h => by cases h⟩
      · next hn =>
        exfalso
        revert hn
        unfold Store.store
        rw [hf]
        by_cases h0 : 0 < it.cas
        · rw [if_pos h0]
          dsimp only
          split <;> (intro h; cases h)
        · rw [if_neg h0]
          intro h; cases h
      · exact ⟨hst, fun h => by cases h⟩
    | add i =>
      cases hs
      simp only [metaApi]
      exact ⟨hst, fun h => by split at h <;> cases h⟩
    | replace i =>
      cases hs
      simp only [metaApi]
      refine ⟨hst, ?_⟩
      rw [if_pos]
      · exact fun h => by cases h
      · unfold Store.store
        rw [hf]
    | _ => cases hs
  · cases hk
    simp only [metaApi]
    rw [hf]
    exact ⟨⟨e, h1, h2⟩, fun h => by cases h⟩
  · cases hk
    exact arith true d
  · cases hk
    exact arith false d

/-- Nobody removes `k`. -/
structure Standing (p : Bytes → S) (k : Bytes) (z : Torn S) : Prop where
  there : Endures k (z.world (p k))
  each : ∀ i o v, z.calls i = some (o, v) → PlainOp o ∧ (o.key? = some k → Retains o)
  drift : ∀ c s, ∀ o ∈ z.adrift c s, PlainOp o ∧ (o.key? = some k → Retains o)
  found : ∀ i o r, z.calls i = some (o, some r) → o.key? = some k → r ≠ .err .itemNotFound

theorem standing_once {w : World S} {o : Op} (ho : PlainOp o ∧ (o.key? = some k → Retains o)) (h : Endures k (w (p k))) :
    Endures k ((atOnce p w o).2 (p k)) ∧ (o.key? = some k → (atOnce p w o).1 ≠ .err .itemNotFound) := by
  obtain ⟨k', hk⟩ := plain_key ho.1
  rw [atOnce_key hk]
  dsimp only
  by_cases e : k' = k
  · subst e
    obtain ⟨g1, g2⟩ := retains_meta hk (ho.2 hk) h
    rw [update_same]
    exact ⟨g1, fun _ => g2⟩
  · refine ⟨?_, fun h => by rw [hk] at h; cases h; exact absurd rfl e⟩
    by_cases hs : p k = p k'
    · rw [← hs, update_same]
      obtain ⟨e1, h1, h2⟩ := h
      obtain ⟨g1, -⟩ := op_frame (k := k) hk (plain_good ho.1 (w (p k))) (.inl e) (w (p k))
      exact ⟨e1, by rw [g1]; exact h1, h2⟩
    · rw [update_ne _ _ hs]; exact h

theorem standing_run {w : World S} {l : List (Deed S Op)} {z : Torn S} (h : TornRun again p q proc (Torn.start w) l z) (h0 : Endures k (w (p k)))
    (hd : ∀ i o, (i, o) ∈ Spec.Wired.starts (seenOf l) → PlainOp o ∧ (o.key? = some k → Retains o)) :
    Standing p k z ∧ ∀ i o r, Spec.Wired.Answered (seenOf l) i o r → o.key? = some k → r ≠ .err .itemNotFound := by
  induction h with
  | nil => exact ⟨⟨h0, fun _ _ _ h => (nomatch h), fun _ _ _ h => (nomatch h), fun _ _ _ h => (nomatch h)⟩, by
      rintro i o r ⟨t1, t2, h, -⟩
      cases t1 <;> cases h⟩
  | @snoc l d z z' hl hs ih =>
    obtain ⟨t, ha⟩ := ih fun i o hi => hd i o (by rw [seenOf_append, starts_append]; exact List.mem_append_left _ hi)
    have hu := (torn_answered hl).1
    rw [seenOf_append] at hd ⊢
    have quiet : (∀ i r, Ev.finish (M := Op) i r ∉ seenOf [d]) → ∀ i o r, Spec.Wired.Answered (seenOf l ++ seenOf [d]) i o r → o.key? = some k → r ≠ .err .itemNotFound := by
      rintro hq i o r ⟨t1, t2, h1, h2⟩ ho
      have : ∃ t2', seenOf l = t1 ++ .finish i r :: t2' := by
        rcases List.append_eq_append_iff.1 h1 with ⟨a, e1, e2⟩ | ⟨a, e1, e2⟩
        · exact absurd (by rw [e2]; exact List.mem_append_right _ (.head _)) (hq i r)
        · cases a with
          | nil => exact absurd (by rw [← e2.trans (List.nil_append _)]; exact .head _) (hq i r)
          | cons y a =>
            injection e2 with e2 e3
            exact ⟨a, by rw [e1, e2]⟩
      obtain ⟨t2', e⟩ := this
      exact ha i o r ⟨t1, t2', e, h2⟩ ho
    -- goroutine `i` gets a result
    have move : ∀ {w' : World S} {i : Nat} {o : Op} {u : Option (Res Out)} {v : Res Out} {b : Nat → S → Prop} {ad : Nat → S → List Op},
        z.calls i = some (o, u) → Endures k (w' (p k)) → (o.key? = some k → v ≠ .err .itemNotFound) →
        (∀ c s, ∀ o ∈ ad c s, PlainOp o ∧ (o.key? = some k → Retains o)) → Standing p k ⟨w', fun j => if j = i then some (o, some v) else z.calls j, b, ad⟩ := by
      intro w' i o u v b ad hi hw hv had
      refine ⟨hw, fun j o' v' hj => ?_, had, fun j o' r hj => ?_⟩
      · have hj : (if j = i then _ else z.calls j) = _ := hj
        by_cases e : j = i
        · rw [if_pos e] at hj; cases hj; exact t.each _ _ _ hi
        · rw [if_neg e] at hj; exact t.each _ _ _ hj
      · have hj : (if j = i then _ else z.calls j) = _ := hj
        by_cases e : j = i
        · rw [if_pos e] at hj; cases hj; exact hv
        · rw [if_neg e] at hj; exact t.found _ _ _ hj
    cases hs with
    | tick d =>
      obtain ⟨e, h1, h2⟩ := t.there
      exact ⟨⟨⟨e, h1, h2⟩, t.each, t.drift, t.found⟩, quiet (by simp [seenOf])⟩
    | start i o g1 =>
      refine ⟨⟨t.there, fun j o' v hj => ?_, t.drift, fun j o' r hj => ?_⟩, quiet (by simp [seenOf])⟩
      · have hj : (if j = i then _ else z.calls j) = _ := hj
        by_cases e : j = i
        · rw [if_pos e] at hj; cases hj
          exact hd i o (by rw [starts_append]; exact List.mem_append_right _ (.head _))
        · rw [if_neg e] at hj; exact t.each _ _ _ hj
      · have hj : (if j = i then _ else z.calls j) = _ := hj
        by_cases e : j = i
        · rw [if_pos e] at hj; cases hj
        · rw [if_neg e] at hj; exact t.found _ _ _ hj
    | finish i o r g1 =>
      have gone : ∀ {j : Nat} {x : Op × Option (Res Out)}, (if j = i then none else z.calls j) = some x → z.calls j = some x := by
        intro j x hj
        by_cases e : j = i
        · rw [if_pos e] at hj; cases hj
        · rwa [if_neg e] at hj
      refine ⟨⟨t.there, fun j o' v hj => t.each _ _ _ (gone hj), t.drift, fun j o' r hj => t.found _ _ _ (gone hj)⟩, fun j o' r' hr ho => ?_⟩
      rcases answered_snoc hr with ⟨g, gu⟩ | g
      · injection g with e1 e2
        subst e1 e2
        obtain ⟨v, hv⟩ := (result_run hl fun i o hi => plain_key (hd i o (by rw [starts_append]; exact List.mem_append_left _ (mem_starts.2 hi))).1).1 i o' gu
        obtain ⟨rfl, -⟩ := same_call g1 hv
        exact t.found _ _ _ g1 ho
      · exact ha j o' r' g ho
    | breaks c s => exact ⟨⟨t.there, t.each, t.drift, t.found⟩, quiet (by simp [seenOf])⟩
    | mends c s => exact ⟨⟨t.there, t.each, t.drift, t.found⟩, quiet (by simp [seenOf])⟩
    | run i o g1 =>
      obtain ⟨h1, h2⟩ := standing_once (t.each _ _ _ g1) t.there
      exact ⟨move g1 h1 h2 t.drift, quiet (by simp [seenOf])⟩
    | lose i o k' res g1 g2 g3 => exact ⟨move g1 t.there (fun _ h => by cases h) t.drift, quiet (by simp [seenOf])⟩
    | misses i o k' n g1 g2 g3 g4 =>
      refine ⟨move g1 t.there (fun ho _ => ?_) t.drift, quiet (by simp [seenOf])⟩
      rw [g2] at ho
      cases ho
      obtain ⟨e, h1, h2⟩ := t.there
      rw [find_forever h1 h2] at g4
      cases g4
    | fail i o k' g1 g2 g3 =>
      refine ⟨move g1 t.there (fun _ h => by cases h) fun c s o' ho' => ?_, quiet (by simp [seenOf])⟩
      by_cases e : c = proc i ∧ s = p k'
      · rw [if_pos e] at ho'
        rcases List.mem_append.1 ho' with ho' | ho'
        · exact t.drift c s o' ho'
        · rw [List.mem_singleton.1 (List.mem_filter.1 ho').1]; exact t.each _ _ _ g1
      · rw [if_neg e] at ho'
        exact t.drift c s o' ho'
    | late c s o l1 l2 g1 =>
      obtain ⟨h1, -⟩ := standing_once (t.drift c s o (by rw [g1]; exact List.mem_append_right _ (.head _))) t.there
      refine ⟨⟨h1, t.each, fun c' s' o' ho' => ?_, t.found⟩, quiet (by simp [seenOf])⟩
      have ho' : o' ∈ (if c' = c ∧ s' = s then l1 ++ l2 else z.adrift c' s') := ho'
      by_cases e : c' = c ∧ s' = s
      · rw [if_pos e] at ho'
        exact t.drift c s o' (by rw [g1]; exact mem_around ho')
      · rw [if_neg e] at ho'
        exact t.drift c' s' o' ho'

section
variable {U : Setup S Op} {H : Hashes} {name : S → Bytes} {ps qs : List S} {r : ReplicaPool S}
    {w : World S} {tr : List (Ev Op)} {x : State S}

/-- **C87**, a key that stays: if the primary of `k` holds it, without an expiration time, and every call for `k` is a
Get, an Increment or Decrement, or stores without an expiration time, then no call for `k` returns ItemNotFound, whatever
connections break. -/
theorem C87_found (c : TornUse U H name ps qs r p q w tr x) (h0 : Endures k (w (p k)))
    (ho : ∀ i o, .start i o ∈ tr → o.key? = some k → Retains o) :
    Endures k (x.world (p k)) ∧ ∀ i o res, Spec.Wired.Answered tr i o res → o.key? = some k → res ≠ .err .itemNotFound := by
  obtain ⟨l, z, h1, h2, h3, -⟩ := C87_pool c
  obtain ⟨g1, g2⟩ := standing_run h1 h0 fun i o hi => by
    rw [h2] at hi
    exact ⟨c.kinds i o (mem_starts.1 hi), ho i o (mem_starts.1 hi)⟩
  rw [h2] at g2
  exact ⟨by rw [← h3]; exact g1.there, g2⟩

end
end Wired

namespace Rewired
open Kv Spec Mc Pool Cluster Props
open Wired (Setup Ev)

section
variable {S : Type} [DecidableEq S] {U : Setup S Op} {H : Hashes} {name : S → Bytes} {ps qs : List S} {r : ReplicaPool S} {p q : Bytes → S}
    {w : World S} {tr : List (Ev Op)} {x : State S} {k : Bytes}

/-- **C88**, a key that stays: as C87_found, with connections that break and are replaced. -/
theorem C88_found (c : RetornUse U H name ps qs r p q w tr x) (h0 : Endures k (w (p k)))
    (ho : ∀ i o, .start i o ∈ tr → o.key? = some k → Retains o) :
    Endures k (x.world (p k)) ∧ ∀ i o res, Spec.Wired.Answered tr i o res → o.key? = some k → res ≠ .err .itemNotFound := by
  obtain ⟨l, z, h1, h2, h3, -⟩ := C88_pool c
  obtain ⟨g1, g2⟩ := Wired.standing_run h1 h0 fun i o hi => by
    rw [h2] at hi
    exact ⟨c.kinds i o (Wired.mem_starts.1 hi), ho i o (Wired.mem_starts.1 hi)⟩
  rw [h2] at g2
  exact ⟨by rw [← h3]; exact g1.there, g2⟩

end
end Rewired
end Verif
