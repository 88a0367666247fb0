import Verif.Props.WiredRead
import Verif.Props.RewiredPool
/-!
C85 and C86: what is read, through pools over connections that break, after a write has been acknowledged.
-/

namespace Verif
namespace Wired
open Kv Spec Mc Pool Cluster Props

variable {S : Type} [DecidableEq S]

section
variable {does : World S → Op → Res Out × World S} {errs : Err → Prop} {k : Bytes} {G : Op → Prop} {B : World S → Prop} {R : Res Out → Prop} {w : World S}

/-- Calls `G` keep `B`, those that change key `k` and succeed bring it about, and if `B`, then Get of `k` has a result `R`. -/
structure Keeps (does : World S → Op → Res Out × World S) (errs : Err → Prop) (k : Bytes) (G : Op → Prop) (B : World S → Prop) (R : Res Out → Prop) : Prop where
  tick : ∀ w d, B w → B (World.tick w d)
  stays : ∀ w o, G o → B w → B (does w o).2
  first : ∀ w o y, G o → Alters k o → (does w o).1 = .ok y → B (does w o).2
  get : ∀ w, B w → R (does w (.get k)).1
  errs : ∀ e, errs e → R (.err e)

/-- The invariant. -/
structure Fresh1 (k : Bytes) (G : Op → Prop) (B : World S → Prop) (R : Res Out → Prop) (tr : List (Ev Op)) (z : Frail S) : Prop where
  each : ∀ i o v, z.calls i = some (o, v) → G o
  drift : ∀ x ∈ z.adrift, G x.2.2
  fine : ∀ i o y, z.calls i = some (o, some (.ok y)) → Alters k o → B z.world
  under : ∀ i o, Spec.Wired.Under tr i o → ∃ v, z.calls i = some (o, v)
  acked : Spec.Wired.Changed tr k → B z.world
  reading : ∀ j, Reading tr k j → ∀ res, z.calls j = some (.get k, some res) → R res
  read : ∀ r, Spec.Wired.ReadAfter tr k r → R r

theorem same_frail {z : Frail S} {i : Nat} {o o' : Op} {u v : Option (Res Out)} (h : z.calls i = some (o, u)) (h' : z.calls i = some (o', v)) :
    o' = o ∧ v = u := by
  rw [h] at h'
  injection h' with h'
  injection h' with h1 h2
  exact ⟨h1.symm, h2.symm⟩

theorem fresh_step (hw : Keeps does errs k G B R) {tr : List (Ev Op)} {z z' : Frail S} {d : Deed S Op} (h : Fresh1 k G B R tr z)
    (hs : LooseStep does errs z d z') (hd : ∀ i o, d = .ev (.start i o) → G o) : Fresh1 k G B R (tr ++ seenOf [d]) z' := by
  have move : ∀ {w' : World S} {i : Nat} {o : Op} {u : Option (Res Out)} {v : Res Out} {b : Nat → S → Prop} {ad : List (Nat × S × Op)},
      z.calls i = some (o, u) → (B z.world → B w') →
      (∀ y, v = .ok y → Alters k o → B w') → (∀ x ∈ ad, G x.2.2) →
      (o = .get k → Reading tr k i → R v) →
      Fresh1 k G B R tr ⟨w', fun j => if j = i then some (o, some v) else z.calls j, b, ad⟩ := by
    intro w' i o u v b ad hi hB hv had hr
    refine ⟨fun j o' v' hj => ?_, had, fun j o' y hj ha => ?_, fun j o' hu => ?_, fun hc => hB (h.acked hc), fun j hj res hres => ?_, h.read⟩
    · by_cases e : j = i
      · subst e
        simp only [if_pos] at hj
        injection hj with hj
        injection hj with e1 e2
        subst e1
        exact h.each _ _ _ hi
      · exact h.each _ _ _ (by simpa only [if_neg e] using hj)
    · by_cases e : j = i
      · subst e
        simp only [if_pos] at hj
        injection hj with hj
        injection hj with e1 e2
        injection e2 with e2
        subst e1
        exact hv y e2 ha
      · exact hB (h.fine _ _ _ (by simpa only [if_neg e] using hj) ha)
    · obtain ⟨v', hv'⟩ := h.under j o' hu
      by_cases e : j = i
      · subst e
        obtain ⟨rfl, -⟩ := same_frail hi hv'
        exact ⟨some v, if_pos rfl⟩
      · exact ⟨v', by simpa only [if_neg e] using hv'⟩
    · by_cases e : j = i
      · subst e
        simp only [if_pos] at hres
        injection hres with hres
        injection hres with e1 e2
        injection e2 with e2
        subst e2
        exact hr e1 hj
      · exact h.reading j hj res (by simpa only [if_neg e] using hres)
  have noChange : ∀ {e : Ev Op}, (∀ i r, e ≠ .finish i r) → Spec.Wired.Changed (tr ++ [e]) k → Spec.Wired.Changed tr k := by
    rintro e he ⟨i, o, y, g1, g2⟩
    rcases answered_snoc g1 with ⟨g, -⟩ | g
    · exact absurd g (he _ _)
    · exact ⟨i, o, y, g, g2⟩
  cases hs with
  | tick d =>
    refine ⟨h.each, h.drift, fun i o y hi ha => hw.tick _ _ (h.fine i o y hi ha), fun i o hu => ?_, fun g => hw.tick _ _ (h.acked (noChange (fun _ _ h => by cases h) g)),
      fun j hj => ?_, fun r hr => ?_⟩
    · rcases under_snoc hu with g | g
      · cases g
      · exact h.under i o g.1
    · rcases reading_snoc hj with g | g
      · cases g.1
      · exact h.reading j g.1
    · rcases readAfter_snoc hr with ⟨j, g, -⟩ | g
      · cases g
      · exact h.read r g
  | start i o hi =>
    refine ⟨fun j o' v hj => ?_, h.drift, fun j o' y hj ha => ?_, fun j o' hu => ?_, fun g => h.acked (noChange (fun _ _ h => by cases h) g), fun j hj res hres => ?_, fun r hr => ?_⟩
    · by_cases e : j = i
      · subst e
        simp only [if_pos] at hj
        injection hj with hj
        injection hj with e1 e2
        subst e1
        exact hd _ _ rfl
      · exact h.each _ _ _ (by simpa only [if_neg e] using hj)
    · by_cases e : j = i
      · subst e
        simp only [if_pos] at hj
        injection hj with hj
        injection hj with e1 e2
        cases e2
      · exact h.fine j o' y (by simpa only [if_neg e] using hj) ha
    · by_cases e : j = i
      · subst e
        rcases under_snoc hu with g | g
        · injection g with g1 g2
          subst g2
          exact ⟨none, if_pos rfl⟩
        · obtain ⟨v, hv⟩ := h.under j o' g.1
          rw [hi] at hv; cases hv
      · rcases under_snoc hu with g | g
        · injection g with g1 g2
          exact absurd g1.symm e
        · obtain ⟨v, hv⟩ := h.under j o' g.1
          exact ⟨v, by simpa only [if_neg e] using hv⟩
    · by_cases e : j = i
      · subst e
        simp only [if_pos] at hres
        injection hres with hres
        injection hres with e1 e2
        cases e2
      · rcases reading_snoc hj with g | g
        · injection g.1 with g1 g2
          exact absurd g1.symm e
        · exact h.reading j g.1 res (by simpa only [if_neg e] using hres)
    · rcases readAfter_snoc hr with ⟨j, g, -⟩ | g
      · cases g
      · exact h.read r g
  | finish i o r hi =>
    have gone : ∀ {j : Nat} {x : Op × Option (Res Out)}, (if j = i then none else z.calls j) = some x → z.calls j = some x := by
      intro j x hj
      by_cases e : j = i
      · rw [if_pos e] at hj; cases hj
      · rwa [if_neg e] at hj
    refine ⟨fun j o' v hj => h.each j o' v (gone hj), h.drift, fun j o' y hj ha => h.fine j o' y (gone hj) ha, fun j o' hu => ?_, fun g => ?_,
      fun j hj res hres => ?_, fun r' hr => ?_⟩
    · rcases under_snoc hu with g | g
      · cases g
      · obtain ⟨v, hv⟩ := h.under j o' g.1
        exact ⟨v, by
          have : j ≠ i := fun e => g.2 r (by rw [e])
          simpa only [if_neg this] using hv⟩
    · obtain ⟨j, o', y, g1, g2⟩ := g
      rcases answered_snoc g1 with ⟨g, gu⟩ | g
      · injection g with e1 e2
        subst e1 e2
        obtain ⟨v, hv⟩ := h.under _ o' gu
        obtain ⟨rfl, -⟩ := same_frail hi hv
        exact h.fine _ _ y hi g2
      · exact h.acked ⟨j, o', y, g, g2⟩
    · rcases reading_snoc hj with g | g
      · cases g.1
      · exact h.reading j g.1 res (gone hres)
    · rcases readAfter_snoc hr with ⟨j, g, gr⟩ | g
      · injection g with e1 e2
        subst e1 e2
        obtain ⟨v, hv⟩ := h.under _ _ (reading_under gr)
        obtain ⟨e1, -⟩ := same_frail hi hv
        subst e1
        exact h.reading _ gr _ hi
      · exact h.read r' g
  | breaks d br e1 e2 =>
    rw [e1, List.append_nil]
    exact ⟨h.each, h.drift, h.fine, h.under, h.acked, h.reading, h.read⟩
  | run i o hi =>
    rw [show seenOf [Deed.run i] = ([] : List (Ev Op)) from rfl, List.append_nil]
    have hG := h.each _ _ _ hi
    refine move hi (hw.stays _ _ hG) (fun y hy ha => hw.first _ _ y hG ha hy) h.drift (fun ho hr => ?_)
    subst ho
    obtain ⟨t1, t2, rfl, g2, i', o', y, g3, g4⟩ := hr
    obtain ⟨t3, t4, rfl, g5⟩ := g3
    exact hw.get _ (h.acked ⟨i', o', y, ⟨t3, _, List.append_assoc _ _ _, g5⟩, g4⟩)
  | lose i o res e hi he =>
    rw [show seenOf [Deed.lose i] = ([] : List (Ev Op)) from rfl, List.append_nil]
    exact move hi id (fun y hy => by cases hy) h.drift fun _ _ => hw.errs e he
  | fail i c s o e hi he =>
    rw [show seenOf [Deed.fail i] = ([] : List (Ev Op)) from rfl, List.append_nil]
    refine move hi id (fun y hy => by cases hy) (fun x hx => ?_) fun _ _ => hw.errs e he
    rcases List.mem_append.1 hx with hx | hx
    · exact h.drift x hx
    · rw [List.mem_singleton.1 hx]; exact h.each _ _ _ hi
  | late c s o l1 l2 ha =>
    rw [show seenOf [Deed.late c s] = ([] : List (Ev Op)) from rfl, List.append_nil]
    have hG : G o := h.drift (c, s, o) (by rw [ha]; exact List.mem_append_right _ (.head _))
    have hB : B z.world → B (does z.world o).2 := hw.stays _ _ hG
    exact ⟨h.each, fun x hx => h.drift x (by rw [ha]; exact mem_around hx), fun i o y hi hal => hB (h.fine i o y hi hal), h.under, fun g => hB (h.acked g),
      h.reading, h.read⟩

theorem fresh_run (hw : Keeps does errs k G B R) {l : List (Deed S Op)} {z : Frail S} (h : LooseRun does errs (Frail.start w) l z)
    (hd : ∀ i o, Ev.start i o ∈ seenOf l → G o) : Fresh1 k G B R (seenOf l) z := by
  induction h with
  | nil =>
    have no : ∀ {α : Type} {a b : List α} {x : α}, [] ≠ a ++ x :: b := by intro α a b x h; cases a <;> cases h
    refine ⟨fun _ _ _ h => (by cases h), fun _ h => (by cases h), fun _ _ _ h => (by cases h), ?_, ?_, ?_, ?_⟩
    · rintro i o ⟨t1, t2, h, -⟩; exact absurd h no
    · rintro ⟨i, o, y, ⟨t1, t2, h, -⟩, -⟩; exact absurd h no
    · rintro j ⟨t1, t2, h, -⟩; exact absurd h no
    · rintro r ⟨t1, t2, t3, j, h, -⟩; exact absurd h no
  | @snoc l d z z' _ hs ih =>
    rw [seenOf_append]
    rw [seenOf_append] at hd
    exact fresh_step hw (ih fun i o h => hd i o (List.mem_append_left _ h)) hs fun i o e =>
      hd i o (List.mem_append_right _ (by rw [e]; exact .head _))

end

theorem loose_answered {does : World S → Op → Res Out × World S} {errs : Err → Prop} {w : World S} {l : List (Deed S Op)} {z : Frail S}
    (h : LooseRun does errs (Frail.start w) l z) :
    (∀ i o x, z.calls i = some (o, x) → Spec.Wired.Under (seenOf l) i o)
      ∧ ∀ i r, .finish i r ∈ seenOf l → ∃ o, Spec.Wired.Answered (seenOf l) i o r := by
  have keep : ∀ {tr : List (Ev Op)} {i : Nat} {o : Op}, Spec.Wired.Under tr i o → ∀ {es : List (Ev Op)}, (∀ r, .finish i r ∉ es) → Spec.Wired.Under (tr ++ es) i o := by
    rintro tr i o ⟨t1, t2, rfl, h2⟩ es he
    refine ⟨t1, t2 ++ es, by simp, fun r hr => ?_⟩
    rcases List.mem_append.1 hr with hr | hr
    · exact h2 r hr
    · exact he r hr
  have more : ∀ {tr : List (Ev Op)} {i : Nat} {o : Op} {r : Res Out}, Spec.Wired.Answered tr i o r → ∀ es, Spec.Wired.Answered (tr ++ es) i o r := by
    rintro tr i o r ⟨t1, t2, rfl, h2⟩ es
    exact ⟨t1, t2 ++ es, by simp, h2⟩
  induction h with
  | nil => exact ⟨fun _ _ _ h => (nomatch h), fun _ _ h => nomatch h⟩
  | @snoc l d z z' _ hs ih =>
    obtain ⟨h1, h2⟩ := ih
    rw [seenOf_append]
    have old : (∀ i r, .finish i r ∉ seenOf [d]) → ∀ i r, .finish i r ∈ seenOf l ++ seenOf [d] → ∃ o, Spec.Wired.Answered (seenOf l ++ seenOf [d]) i o r := by
      intro hd i r hi
      obtain ⟨o, ho⟩ := h2 i r ((List.mem_append.1 hi).resolve_right (hd i r))
      exact ⟨o, more ho _⟩
    have move : ∀ {i : Nat} {o : Op} {x x' : Option (Res Out)}, (∀ i r, .finish i r ∉ seenOf [d]) → z.calls i = some (o, x) →
        ∀ j o' y, (if j = i then some (o, x') else z.calls j) = some (o', y) → Spec.Wired.Under (seenOf l ++ seenOf [d]) j o' := by
      intro i o x x' hd hi j o' y hj
      refine keep ?_ (hd j)
      by_cases e : j = i
      · rw [if_pos e] at hj; cases hj; exact h1 j o x (e ▸ hi)
      · rw [if_neg e] at hj; exact h1 j o' y hj
    cases hs with
    | tick d => exact ⟨fun i o x hi => keep (h1 i o x hi) (by simp [seenOf]), old (by simp [seenOf])⟩
    | breaks d br e1 e2 => rw [e1] at old ⊢; exact ⟨fun i o x hi => keep (h1 i o x hi) (by simp), old (by simp)⟩
    | late c s => exact ⟨fun i o x hi => keep (h1 i o x hi) (by simp [seenOf]), old (by simp [seenOf])⟩
    | run i o g => exact ⟨move (by simp [seenOf]) g, old (by simp [seenOf])⟩
    | lose i o res e g => exact ⟨move (by simp [seenOf]) g, old (by simp [seenOf])⟩
    | fail i c s o e g => exact ⟨move (by simp [seenOf]) g, old (by simp [seenOf])⟩
    | start i o g =>
      refine ⟨fun j o' x hj => ?_, old (by simp [seenOf])⟩
      have hj : (if j = i then some (o, none) else z.calls j) = _ := hj
      by_cases e : j = i
      · rw [if_pos e] at hj
        cases hj
        rw [e]
        exact ⟨seenOf l, [], rfl, by simp⟩
      · rw [if_neg e] at hj
        exact keep (h1 j o' x hj) (by simp [seenOf])
    | finish i o r g =>
      refine ⟨fun j o' x hj => ?_, fun j r' hj => ?_⟩
      · have hj : (if j = i then none else z.calls j) = _ := hj
        by_cases e : j = i
        · rw [if_pos e] at hj; cases hj
        · rw [if_neg e] at hj
          refine keep (h1 j o' x hj) fun r hr => ?_
          cases List.mem_singleton.1 hr
          exact e rfl
      · rcases List.mem_append.1 hj with hj | hj
        · obtain ⟨o, ho⟩ := h2 j r' hj
          exact ⟨o, more ho _⟩
        · cases List.mem_singleton.1 hj
          exact ⟨o, seenOf l, [], rfl, h1 _ o _ g⟩

/-! ### Text connections -/

/-- What a call of a text client leaves. -/
def LeavesText (k : Bytes) (o : Op) (st : Store) : Prop :=
  (∃ it e, stored? o = some it ∧ st.find k = some e ∧ e.value = it.value ∧ e.flags = flagsOf it ∧ e.expiry = none)
    ∨ (o = .delete k ∧ st.find k = none)

theorem touches_text {o : Op} {k' : Bytes} (hk : o.key? = some k') (name : Bytes) (s : Store) : Touches k' s (textApi name s o).2 := by
  cases o with
  | get k => simp only [textApi]; split <;> exact .refl ..
  | set i =>
    cases hk
    simp only [textApi]
    split <;> exact .store ..
  | add i => cases hk; exact Touches.store i.key s .add _ _ _
  | replace i => cases hk; exact Touches.store i.key s .replace _ _ _
  | delete k' => cases hk; exact Touches.delete _ s
  | increment k' d e => cases hk; exact Touches.arithApi _ s _ _
  | decrement k' d e => cases hk; exact Touches.arithApi _ s _ _
  | touch k' e =>
    cases hk
    simp only [textApi, Store.touch]
    split
    · exact .write ..
    · exact .refl ..
  | getMulti ks => cases hk
  | flush => cases hk

/-- A call that changes `k`: if it succeeds it leaves what it leaves; otherwise nothing has changed, or it has deleted. -/
theorem leaves_text {o : Op} {k : Bytes} (hk : o.key? = some k) (hc : KeepsOrDrops k o) (name : Bytes) (s : Store) :
    LeavesText k o (textApi name s o).2 ∨ ((textApi name s o).2 = s ∧ ∀ y, (textApi name s o).1 ≠ .ok y) := by
  rcases hc with ⟨it, hs, hx⟩ | rfl
  · have key : it.key = k := by
      cases o <;> first | (cases hs; cases hk; rfl) | cases hs
    subst key
    have left : LeavesText it.key o (s.put it.key it.value (flagsOf it) none) := .inl ⟨it, _, hs, put_find _ _ _ _, rfl, rfl, rfl⟩
    cases o with
    | set i =>
      cases hs
      simp only [textApi]
      rw [hx]
      unfold Store.store
      by_cases h0 : 0 < it.cas
      · rw [if_pos h0]
        cases hf : s.find it.key with
        | none => exact .inr ⟨rfl, nofun⟩
        | some e =>
          dsimp only
          by_cases he : e.cas = it.cas
          · rw [if_pos he]; exact .inl (by simpa [expiryOf] using left)
          · rw [if_neg he]; exact .inr ⟨rfl, nofun⟩
      · rw [if_neg h0]
        exact .inl (by simpa [expiryOf] using left)
    | add i =>
      cases hs
      simp only [textApi, Store.store, hx]
      cases s.find it.key with
      | none => exact .inl (by simpa [expiryOf] using left)
      | some e => exact .inr ⟨rfl, nofun⟩
    | replace i =>
      cases hs
      simp only [textApi, Store.store, hx]
      cases s.find it.key with
      | some e => exact .inl (by simpa [expiryOf] using left)
      | none => exact .inr ⟨rfl, nofun⟩
    | _ => cases hs
  · exact .inl (.inr ⟨rfl, Wired.delete_find s k⟩)

section
variable {H : Hashes} {name : S → Bytes} {r : Ring S} {p : Bytes → S}

theorem keeps_text {k : Bytes} {tr : List (Ev Op)} (hk : ∀ i o, Ev.start i o ∈ tr → o.key? ≠ none)
    (ho : ∀ i o, Ev.start i o ∈ tr → o.key? = some k → changing o = true → KeepsOrDrops k o) :
    Keeps (serverDoes name p) (· = .io) k (fun o => ∃ i, Ev.start i o ∈ tr)
      (fun w => ∃ i o, Ev.start i o ∈ tr ∧ o.key? = some k ∧ LeavesText k o (w (p k))) (fun r => r = .err .io ∨ Spec.Wired.OneOfThose tr k r) := by
  have does : ∀ (w : World S) {o : Op} {k' : Bytes}, o.key? = some k' →
      serverDoes name p w o = ((textApi (name (p k')) (w (p k')) o).1, World.update w (p k') (textApi (name (p k')) (w (p k')) o).2) := by
    intro w o k' h
    unfold serverDoes
    rw [h]
  have again : ∀ {o : Op} {st st' : Store}, st'.find k = st.find k → LeavesText k o st → LeavesText k o st' := by
    intro o st st' h hl
    unfold LeavesText at hl ⊢
    rwa [h]
  refine ⟨?_, ?_, ?_, ?_, fun e he => .inl (by rw [he])⟩
  · rintro w d ⟨i, o, h1, h2, h3⟩
    refine ⟨i, o, h1, h2, ?_⟩
    rcases h3 with ⟨it, e, g1, g2, g3, g4, g5⟩ | ⟨g1, g2⟩
    · exact .inl ⟨it, e, g1, find_tick.1 e g2 g5, g3, g4, g5⟩
    · exact .inr ⟨g1, find_tick.2 g2⟩
  · rintro w o ⟨i, hi⟩ ⟨i', o', h1, h2, h3⟩
    cases hko : o.key? with
    | none => exact absurd hko (hk i o hi)
    | some k' =>
      rw [does w hko]
      dsimp only
      by_cases e : k' = k
      · subst e
        rw [update_same]
        cases hc : changing o with
        | false =>
          cases o with
          | get k =>
            refine ⟨i', o', h1, h2, ?_⟩
            rw [show (textApi (name (p k')) (w (p k')) (.get k)).2 = w (p k') by simp only [textApi]; split <;> rfl]
            exact h3
          | _ => cases hc
        | true =>
          rcases leaves_text hko (ho i o hi hko hc) (name (p k')) (w (p k')) with g | ⟨g, -⟩
          · exact ⟨i, o, hi, hko, g⟩
          · rw [g]; exact ⟨i', o', h1, h2, h3⟩
      · refine ⟨i', o', h1, h2, ?_⟩
        by_cases hs : p k = p k'
        · rw [← hs, update_same]
          obtain ⟨g1, g2⟩ := touches_text hko (name (p k)) (w (p k))
          exact again (find_frame (g2 k (Ne.symm e)) g1) h3
        · rw [update_ne _ _ hs]; exact h3
  · rintro w o y ⟨i, hi⟩ ⟨hko, hc⟩ hy
    rw [does w hko] at hy ⊢
    dsimp only at hy ⊢
    rw [update_same]
    rcases leaves_text hko (ho i o hi hko hc) (name (p k)) (w (p k)) with g | ⟨-, g⟩
    · exact ⟨i, o, hi, hko, g⟩
    · exact absurd hy (g y)
  · rintro w ⟨i, o, h1, h2, h3⟩
    rw [does w (o := .get k) rfl]
    refine .inr ?_
    simp only [textApi]
    rcases h3 with ⟨it, e, g1, g2, g3, g4, g5⟩ | ⟨rfl, g2⟩
    · rw [g2]
      exact .inl ⟨_, i, o, it, rfl, h1, h2, g1, rfl, g3, by show some (putBE 4 e.flags) = _; rw [g4]⟩
    · rw [g2]
      exact .inr ⟨rfl, i, h1⟩

variable {U : Setup S Op} {w : World S} {tr : List (Ev Op)} {x : State S}

/-- Who is back has been answered. -/
theorem back_answered (c : FrailUse U H name r p w tr x) (hx : ∀ i, x.prog i = none) {t1 t2 : List (Ev Op)} {i : Nat} {o : Op}
    (ht : tr = t1 ++ .start i o :: t2) : ∃ t3 res t4, t2 = t3 ++ .finish i res :: t4 ∧ ∀ r', .finish i r' ∉ t3 := by
  rcases finish_split i t2 with h | h
  · obtain ⟨l, z, h1, h2, -, -, -, h3⟩ := C85_pool c
    have hk : Keeps (S := S) (serverDoes name p) (· = .io) [] (fun _ => True) (fun _ => True) (fun _ => True) :=
      ⟨fun _ _ _ => trivial, fun _ _ _ _ => trivial, fun _ _ _ _ _ _ => trivial, fun _ _ => trivial, fun _ _ => trivial⟩
    obtain ⟨v, hv⟩ := (fresh_run hk (loose_run h1) (fun _ _ _ => trivial)).under i o (by rw [h2]; exact ⟨t1, t2, ht, h⟩)
    rw [(h3 i).2 (hx i)] at hv; cases hv
  · exact h

/-- **C85**, a write that has been acknowledged stays, and everybody sees it: if every call that changes key `k` stores
without an expiration time or deletes it, then from the moment on at which one has returned without an error, every Get
of `k` called by any process gets a value that one of the calls has given, or, if `k` was deleted by one, ItemNotFound;
or a connection error. -/
theorem C85_read_after (c : FrailUse U H name r p w tr x) {k : Bytes}
    (ho : ∀ i o, Ev.start i o ∈ tr → o.key? = some k → changing o = true → KeepsOrDrops k o) {res : Res Out}
    (hr : Spec.Wired.ReadAfter tr k res) : res = .err .io ∨ Spec.Wired.OneOfThose tr k res := by
  obtain ⟨l, z, h1, h2, -⟩ := C85_pool c
  exact (fresh_run (keeps_text (fun i o hi => (c.ops i o (mem_starts.2 hi)).2) ho) (loose_run h1) (fun i o hi => ⟨i, by rwa [h2] at hi⟩)).read res
    (by rw [h2]; exact hr)

end
end Wired

namespace Rewired
open Kv Spec Mc Pool Cluster Props
open Wired (Setup Ev)

section
variable {S : Type} [DecidableEq S] {U : Setup S Op} {H : Hashes} {name : S → Bytes} {r : Ring S} {p : Bytes → S}
    {w : World S} {tr : List (Ev Op)} {x : State S}

/-- When everybody is back, every call has returned. -/
theorem back_answered (c : PatchedUse U H name r p w tr x) (hx : ∀ i, x.prog i = none) {t1 t2 : List (Ev Op)} {i : Nat} {o : Op}
    (ht : tr = t1 ++ .start i o :: t2) : ∃ t3 res t4, t2 = t3 ++ .finish i res :: t4 ∧ ∀ r', .finish i r' ∉ t3 := by
  rcases Wired.finish_split i t2 with h | h
  · obtain ⟨l, z, h1, h2, -, -, -, -, h3⟩ := C86_pool c
    have hk : Wired.Keeps (S := S) (serverDoes name p) (· = .io) [] (fun _ => True) (fun _ => True) (fun _ => True) :=
      ⟨fun _ _ _ => trivial, fun _ _ _ _ => trivial, fun _ _ _ _ _ _ => trivial, fun _ _ => trivial, fun _ _ => trivial⟩
    obtain ⟨v, hv⟩ := (Wired.fresh_run (w := w) hk (forget_run h1) (fun _ _ _ => trivial)).under i o (by rw [h2]; exact ⟨t1, t2, ht, h⟩)
    rw [show Frail.calls _ i = none from (h3 i).2 (hx i)] at hv; cases hv
  · exact h

/-- **C86**: as C85_read_after, with connections that break and are replaced. -/
theorem C86_read_after (c : PatchedUse U H name r p w tr x) {k : Bytes}
    (ho : ∀ i o, Ev.start i o ∈ tr → o.key? = some k → changing o = true → KeepsOrDrops k o) {res : Res Out}
    (hr : Spec.Wired.ReadAfter tr k res) : res = .err .io ∨ Spec.Wired.OneOfThose tr k res := by
  obtain ⟨l, z, h1, h2, -⟩ := C86_pool c
  exact (Wired.fresh_run (w := w) (Wired.keeps_text (fun i o hi => (c.ops i o (Wired.mem_starts.2 hi)).2) ho) (forget_run h1)
    (fun i o hi => ⟨i, by rwa [h2] at hi⟩)).read res (by rw [h2]; exact hr)

end
end Rewired
end Verif
