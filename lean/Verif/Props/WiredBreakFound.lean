import Verif.Props.WiredBreakRead
import Verif.Props.WiredTornFound
/-!
C85 and C86: a key that nobody removes is found.
-/

namespace Verif
namespace Wired
open Kv Spec Mc Pool Cluster Props

variable {S : Type} [DecidableEq S]

section
variable {does : World S → Op → Res Out × World S} {errs : Err → Prop} {G : Op → Prop} {B : World S → Prop} {Q : Op → Res Out → Prop} {w : World S}

/-- While `B`, calls `G` have results `Q`, and keep `B`. -/
structure Holds (does : World S → Op → Res Out × World S) (errs : Err → Prop) (G : Op → Prop) (B : World S → Prop) (Q : Op → Res Out → Prop) : Prop where
  tick : ∀ w d, B w → B (World.tick w d)
  does : ∀ w o, G o → B w → B (does w o).2 ∧ Q o (does w o).1
  errs : ∀ o e, errs e → Q o (.err e)

/-- The invariant. -/
structure Held (G : Op → Prop) (B : World S → Prop) (Q : Op → Res Out → Prop) (z : Frail S) : Prop where
  here : B z.world
  each : ∀ i o v, z.calls i = some (o, v) → G o
  drift : ∀ x ∈ z.adrift, G x.2.2
  fine : ∀ i o r, z.calls i = some (o, some r) → Q o r

theorem held_run (hw : Holds does errs G B Q) {l : List (Deed S Op)} {z : Frail S} (h : LooseRun does errs (Frail.start w) l z) (h0 : B w)
    (hd : ∀ i o, Ev.start i o ∈ seenOf l → G o) : Held G B Q z ∧ ∀ i o r, Spec.Wired.Answered (seenOf l) i o r → Q o r := by
  induction h with
  | nil => exact ⟨⟨h0, fun _ _ _ h => (nomatch h), fun _ h => (nomatch h), fun _ _ _ h => (nomatch h)⟩, by
      rintro i o r ⟨t1, t2, h, -⟩
      cases t1 <;> cases h⟩
  | @snoc l d z z' hl hs ih =>
    obtain ⟨t, ha⟩ := ih fun i o hi => hd i o (by rw [seenOf_append]; exact List.mem_append_left _ hi)
    rw [seenOf_append] at hd ⊢
    have quiet : (∀ i r, Ev.finish (M := Op) i r ∉ seenOf [d]) → ∀ i o r, Spec.Wired.Answered (seenOf l ++ seenOf [d]) i o r → Q o r := by
      rintro hq i o r ⟨t1, t2, h1, h2⟩
      have : ∃ t2', seenOf l = t1 ++ .finish i r :: t2' := by
        rcases List.append_eq_append_iff.1 h1 with ⟨a, e1, e2⟩ | ⟨a, e1, e2⟩
        · exact absurd (by rw [e2]; exact List.mem_append_right _ (.head _)) (hq i r)
        · cases a with
          | nil => exact absurd (by rw [← e2.trans (List.nil_append _)]; exact .head _) (hq i r)
          | cons y a =>
            injection e2 with e2 e3
            exact ⟨a, by rw [e1, e2]⟩
      obtain ⟨t2', e⟩ := this
      exact ha i o r ⟨t1, t2', e, h2⟩
    have move : ∀ {w' : World S} {i : Nat} {o : Op} {u : Option (Res Out)} {v : Res Out} {b : Nat → S → Prop} {ad : List (Nat × S × Op)},
        z.calls i = some (o, u) → B w' → Q o v → (∀ x ∈ ad, G x.2.2) → Held G B Q ⟨w', fun j => if j = i then some (o, some v) else z.calls j, b, ad⟩ := by
      intro w' i o u v b ad hi hw hv had
      refine ⟨hw, fun j o' v' hj => ?_, had, fun j o' r hj => ?_⟩
      · have hj : (if j = i then _ else z.calls j) = _ := hj
        by_cases e : j = i
        · rw [if_pos e] at hj; cases hj; exact t.each _ _ _ hi
        · rw [if_neg e] at hj; exact t.each _ _ _ hj
      · have hj : (if j = i then _ else z.calls j) = _ := hj
        by_cases e : j = i
        · rw [if_pos e] at hj; cases hj; exact hv
        · rw [if_neg e] at hj; exact t.fine _ _ _ hj
    cases hs with
    | tick d => exact ⟨⟨hw.tick _ _ t.here, t.each, t.drift, t.fine⟩, quiet (by simp [seenOf])⟩
    | start i o g1 =>
      refine ⟨⟨t.here, fun j o' v hj => ?_, t.drift, fun j o' r hj => ?_⟩, quiet (by simp [seenOf])⟩
      · have hj : (if j = i then _ else z.calls j) = _ := hj
        by_cases e : j = i
        · rw [if_pos e] at hj; cases hj
          exact hd i o (List.mem_append_right _ (.head _))
        · rw [if_neg e] at hj; exact t.each _ _ _ hj
      · have hj : (if j = i then _ else z.calls j) = _ := hj
        by_cases e : j = i
        · rw [if_pos e] at hj; cases hj
        · rw [if_neg e] at hj; exact t.fine _ _ _ hj
    | finish i o r g1 =>
      have gone : ∀ {j : Nat} {x : Op × Option (Res Out)}, (if j = i then none else z.calls j) = some x → z.calls j = some x := by
        intro j x hj
        by_cases e : j = i
        · rw [if_pos e] at hj; cases hj
        · rwa [if_neg e] at hj
      refine ⟨⟨t.here, fun j o' v hj => t.each _ _ _ (gone hj), t.drift, fun j o' r hj => t.fine _ _ _ (gone hj)⟩, fun j o' r' hr => ?_⟩
      rcases answered_snoc hr with ⟨g, gu⟩ | g
      · injection g with e1 e2
        subst e1 e2
        have hk : Keeps (S := S) does errs [] (fun _ => True) (fun _ => True) (fun _ => True) :=
          ⟨fun _ _ _ => trivial, fun _ _ _ _ => trivial, fun _ _ _ _ _ _ => trivial, fun _ _ => trivial, fun _ _ => trivial⟩
        obtain ⟨v, hv⟩ := (fresh_run hk hl fun _ _ _ => trivial).under _ o' gu
        obtain ⟨rfl, -⟩ := same_frail g1 hv
        exact t.fine _ _ _ g1
      · exact ha j o' r' g
    | breaks d br e1 e2 => exact ⟨⟨t.here, t.each, t.drift, t.fine⟩, quiet (by rw [e1]; nofun)⟩
    | run i o g1 =>
      obtain ⟨h1, h2⟩ := hw.does _ o (t.each _ _ _ g1) t.here
      exact ⟨move g1 h1 h2 t.drift, quiet (by simp [seenOf])⟩
    | lose i o res e g1 he =>
      exact ⟨move g1 t.here (hw.errs o e he) t.drift, quiet (by simp [seenOf])⟩
    | fail i c s o e g1 he =>
      refine ⟨move g1 t.here (hw.errs o e he) fun x hx => ?_, quiet (by simp [seenOf])⟩
      rcases List.mem_append.1 hx with hx | hx
      · exact t.drift x hx
      · rw [List.mem_singleton.1 hx]; exact t.each _ _ _ g1
    | late c s o l1 l2 g1 =>
      have hG : G o := t.drift (c, s, o) (by rw [g1]; exact List.mem_append_right _ (.head _))
      exact ⟨⟨(hw.does _ o hG t.here).1, t.each, fun x hx => t.drift x (by rw [g1]; exact mem_around hx), t.fine⟩, quiet (by simp [seenOf])⟩

end

/-- On memcached, over a text connection. -/
theorem retains_text {o : Op} {k : Bytes} (name : Bytes) (hk : o.key? = some k) (hr : Retains o) {st : Store} (h : Endures k st) :
    Endures k (textApi name st o).2 ∧ (textApi name st o).1 ≠ .err .itemNotFound := by
  obtain ⟨e, h1, h2⟩ := h
  have hf := find_forever h1 h2
  rcases hr with ⟨it, hs, hx⟩ | ⟨k', rfl⟩ | ⟨k', d, x, rfl⟩ | ⟨k', d, x, rfl⟩
  · have key : it.key = k := by
      cases o <;> first | (cases hs; cases hk; rfl) | cases hs
    subst key
    have hst : ∀ {m : Mode} {f : Nat}, Endures it.key (st.store m it.key it.value f it.expiration).2 := by
      rw [hx]; exact stands_store ⟨e, h1, h2⟩
    cases o with
    | set i =>
      cases hs
      simp only [textApi]
      split
      · exact ⟨hst, fun h => by cases h⟩
      · exact ⟨hst, fun h => by cases h⟩
      · exact ⟨hst, fun h => by cases h⟩
      · exact ⟨hst, fun h => by cases h⟩
    | add i =>
      cases hs
      simp only [textApi]
      exact ⟨hst, fun h => by split at h <;> cases h⟩
    | replace i =>
      cases hs
      simp only [textApi]
      refine ⟨hst, ?_⟩
      rw [if_pos]
      · exact fun h => by cases h
      · unfold Store.store
        rw [hf]
    | _ => cases hs
  · cases hk
    simp only [textApi]
    rw [hf]
    exact ⟨⟨e, h1, h2⟩, fun h => by cases h⟩
  · exact retains_meta (o := .increment k' d x) hk (.inr (.inr (.inl ⟨_, _, _, rfl⟩))) ⟨e, h1, h2⟩
  · exact retains_meta (o := .decrement k' d x) hk (.inr (.inr (.inr ⟨_, _, _, rfl⟩))) ⟨e, h1, h2⟩

section
variable {H : Hashes} {name : S → Bytes} {r : Ring S} {p : Bytes → S}

theorem holds_text {k : Bytes} :
    Holds (serverDoes name p) (· = .io) (fun o => o.key? ≠ none ∧ (o.key? = some k → Retains o)) (fun w => Endures k (w (p k)))
      (fun o r => o.key? = some k → r ≠ .err .itemNotFound) := by
  have does : ∀ (w : World S) {o : Op} {k' : Bytes}, o.key? = some k' →
      serverDoes name p w o = ((textApi (name (p k')) (w (p k')) o).1, World.update w (p k') (textApi (name (p k')) (w (p k')) o).2) := by
    intro w o k' h
    unfold serverDoes
    rw [h]
  refine ⟨?_, ?_, fun o e he _ h => ?_⟩
  · rintro w d ⟨e, h1, h2⟩
    exact ⟨e, h1, h2⟩
  · rintro w o ⟨g1, g2⟩ h
    cases hk : o.key? with
    | none => exact absurd hk g1
    | some k' =>
      rw [does w hk]
      dsimp only
      by_cases e : k' = k
      · subst e
        obtain ⟨u1, u2⟩ := retains_text (name (p k')) hk (g2 hk) h
        rw [update_same]
        exact ⟨u1, fun _ => u2⟩
      · refine ⟨?_, fun h => absurd (Option.some.inj h) e⟩
        by_cases hs : p k = p k'
        · rw [← hs, update_same]
          obtain ⟨e1, h1, h2⟩ := h
          obtain ⟨u1, u2⟩ := touches_text hk (name (p k)) (w (p k))
          exact ⟨e1, by rw [u2 k (Ne.symm e)]; exact h1, h2⟩
        · rw [update_ne _ _ hs]; exact h
  · rw [he] at h; cases h

variable {U : Setup S Op} {w : World S} {tr : List (Ev Op)} {x : State S}

/-- **C85**, a key that stays: if its server holds `k`, without an expiration time, and every call for `k` is a Get, an
Increment or Decrement, or stores without an expiration time, then no call for `k` returns ItemNotFound, whatever
connections break. -/
theorem C85_found (c : FrailUse U H name r p w tr x) {k : Bytes} (h0 : Endures k (w (p k)))
    (ho : ∀ i o, .start i o ∈ tr → o.key? = some k → Retains o) :
    Endures k (x.world (p k)) ∧ ∀ i o res, Spec.Wired.Answered tr i o res → o.key? = some k → res ≠ .err .itemNotFound := by
  obtain ⟨l, z, h1, h2, -, h3, -⟩ := C85_pool c
  obtain ⟨g1, g2⟩ := held_run holds_text (loose_run h1) h0 fun i o hi => by
    rw [h2] at hi
    exact ⟨(c.ops i o (mem_starts.2 hi)).2, ho i o hi⟩
  rw [h2] at g2
  exact ⟨h3 ▸ g1.here, g2⟩

end
end Wired

namespace Rewired
open Kv Spec Mc Pool Cluster Props
open Wired (Setup Ev)

section
variable {S : Type} [DecidableEq S] {U : Setup S Op} {H : Hashes} {name : S → Bytes} {r : Ring S} {p : Bytes → S}
    {w : World S} {tr : List (Ev Op)} {x : State S}

/-- **C86**: as C85_found, with connections that break and are replaced. -/
theorem C86_found (c : PatchedUse U H name r p w tr x) {k : Bytes} (h0 : Endures k (w (p k)))
    (ho : ∀ i o, .start i o ∈ tr → o.key? = some k → Retains o) :
    Endures k (x.world (p k)) ∧ ∀ i o res, Spec.Wired.Answered tr i o res → o.key? = some k → res ≠ .err .itemNotFound := by
  obtain ⟨l, z, h1, h2, -, h3, -⟩ := C86_pool c
  obtain ⟨g1, g2⟩ := Wired.held_run (w := w) Wired.holds_text (forget_run h1) h0 fun i o hi => by
    rw [h2] at hi
    exact ⟨(c.ops i o (Wired.mem_starts.2 hi)).2, ho i o hi⟩
  rw [h2] at g2
  exact ⟨h3 ▸ g1.here, g2⟩

end
end Rewired
end Verif
