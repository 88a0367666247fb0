import Verif.Props.ReplicaLinear
import Verif.Props.ReplicaWitness
/-!
C58, continued: when concurrent calls on a replica pool leave the two copies of a key equal, and when
they do not.
-/

namespace Verif
namespace Props
open Kv Spec Mc Pool Cluster

variable {S : Type} [DecidableEq S]

/-! ### exclusive writers -/

theorem find_tick (s : Store) (d : Nat) (k : Bytes) :
    (s.tick d).find k = (s.find k).bind fun e => if e.live (s.now + d) then some e else none := by
  unfold Store.find
  show (match s.data k with | some e => if e.live (s.now + d) then some e else none | none => none) = _
  cases hd : s.data k with
  | none => rfl
  | some e =>
    dsimp only
    by_cases hl : e.live s.now
    · rw [if_pos hl]; rfl
    · rw [if_neg hl]
      have : e.live (s.now + d) = false := by
        unfold Entry.live at hl ⊢
        cases hx : e.expiry with
        | none => simp [hx] at hl
        | some x => simp only [hx] at hl ⊢; simp at hl ⊢; omega
      simp [this]

theorem sameEntry_tick {s t : Store} (hn : s.now = t.now) {k : Bytes} (h : SameEntry (s.find k) (t.find k)) (d : Nat) :
    SameEntry ((s.tick d).find k) ((t.tick d).find k) := by
  rw [find_tick, find_tick]
  cases h1 : s.find k with
  | none =>
    cases h2 : t.find k with
    | none => trivial
    | some e' => rw [h1, h2] at h; exact h.elim
  | some e =>
    cases h2 : t.find k with
    | none => rw [h1, h2] at h; exact h.elim
    | some e' =>
      rw [h1, h2] at h
      obtain ⟨a, b, c⟩ := h
      have : e.live (s.now + d) = e'.live (t.now + d) := by unfold Entry.live; rw [c, hn]
      simp only [Option.bind_some, this]
      split
      · exact ⟨a, b, c⟩
      · trivial

theorem fixed_expiry {i : Item} (h : Fixed i) (t t' : Nat) : expiryOf t i.expiration = expiryOf t' i.expiration := by
  unfold expiryOf
  rcases h with h | h
  · by_cases h0 : i.expiration = 0
    · rw [if_pos h0, if_pos h0]
    · rw [if_neg h0, if_neg h0, if_pos (by omega), if_pos (by omega)]
  · have h0 : ¬ i.expiration = 0 := by intro h'; rw [h'] at h; exact absurd h (by decide)
    have h1 : ¬ i.expiration < 0 := by
      intro h'
      have : (0 : Int) ≤ maxDelta := by decide
      omega
    rw [if_neg h0, if_neg h0, if_neg h1, if_neg h1, if_neg (by omega), if_neg (by omega)]

/-- What the primary holds while the call `op` on the secondary is outstanding. -/
def Left (k : Bytes) (op : Op) (s : Store) : Prop :=
  (∃ it, op = .set it ∧ it.key = k ∧ it.cas = 0 ∧ Fixed it
    ∧ ∃ c, s.data k = some ⟨it.value, metaFlagsOf it, expiryOf 0 it.expiration, c⟩)
  ∨ (op = .delete k ∧ s.find k = none)

theorem left_same {k : Bytes} {op : Op} {s s' : Store} (hd : s'.data k = s.data k) (hn : s'.now = s.now)
    (h : Left k op s) : Left k op s' := by
  rcases h with ⟨it, h1, h2, h3, h4, c, h5⟩ | ⟨h1, h2⟩
  · exact .inl ⟨it, h1, h2, h3, h4, c, by rw [hd]; exact h5⟩
  · refine .inr ⟨h1, ?_⟩
    unfold Store.find at h2 ⊢
    rw [hd, hn]; exact h2

theorem left_tick {k : Bytes} {op : Op} {s : Store} (h : Left k op s) (d : Nat) : Left k op (s.tick d) := by
  rcases h with ⟨it, h1, h2, h3, h4, c, h5⟩ | ⟨h1, h2⟩
  · exact .inl ⟨it, h1, h2, h3, h4, c, h5⟩
  · refine .inr ⟨h1, ?_⟩
    rw [find_tick, h2]; rfl

/-- Once the outstanding call is made the copies agree. -/
theorem left_done {k : Bytes} {op : Op} {s t : Store} (hn : s.now = t.now) (h : Left k op s) :
    SameEntry (s.find k) ((metaApi t op).2.find k) := by
  rcases h with ⟨it, rfl, rfl, h3, h4, c, h5⟩ | ⟨rfl, h2⟩
  · rw [set_plain it t h3]
    show SameEntry (s.find it.key) ((t.put it.key it.value (metaFlagsOf it) (expiryOf t.now it.expiration)).find it.key)
    rw [find_put]
    unfold Store.find
    rw [h5, fixed_expiry h4 t.now 0]
    simp only
    have : Entry.live ⟨it.value, metaFlagsOf it, expiryOf 0 it.expiration, c⟩ s.now
        = Entry.live ⟨it.value, metaFlagsOf it, expiryOf 0 it.expiration, t.nextCas⟩ t.now := by rw [hn]; rfl
    rw [this]
    split
    · exact ⟨rfl, rfl, rfl⟩
    · trivial
  · rw [h2]
    show SameEntry none ((t.delete k).2.find k)
    rw [find_delete]
    trivial

/-- What the first call of a writer of `k` does to the primary: it stores what it will store on the
secondary, or it fails and changes nothing. -/
theorem first_left {o : Op} {k : Bytes} (ho : CopyOp o) (hw : Writes k o)
    (hx : ∀ it, stored? o = some it → Fixed it) (s : Store) :
    ((metaApi s o).1 = .ok .done ∧ ∀ o2, CopyFor o k o2 → Left k o2 (metaApi s o).2)
    ∨ ((∃ e, (metaApi s o).1 = .err e) ∧ (metaApi s o).2 = s) := by
  obtain ⟨hk, hg⟩ := hw
  have stores : ∀ (it : Item), CopyOp (.set it) → stored? o = some it → it.key = k → ∀ s' : Store,
      s' = s.put it.key it.value (metaFlagsOf it) (expiryOf s.now it.expiration) → ∀ o2, CopyFor o k o2 → Left k o2 s' := by
    intro it hc hst hkey s' hs' o2 hf
    rcases hf with ⟨it', h1, _, rfl⟩ | ⟨h1, _⟩
    · rw [hst] at h1; cases h1
      refine .inl ⟨it, rfl, hkey, hc.2, hx it hst, s.nextCas, ?_⟩
      rw [hs', ← hkey, put_at, fixed_expiry (hx it hst) s.now 0]
    · rw [h1] at hst; cases hst
  cases o with
  | get k' => exact absurd rfl (hg k')
  | set it =>
    cases hk
    rw [set_plain it s ho.2]
    exact .inl ⟨rfl, stores it ho rfl rfl _ rfl⟩
  | add it =>
    cases hk
    cases hf : s.find it.key with
    | some e => exact .inr (by simp [metaApi, Store.store, hf])
    | none =>
      refine .inl ⟨by simp [metaApi, Store.store, hf], stores it ho rfl rfl _ ?_⟩
      rw [← flags_agree ho.1]
      simp [metaApi, Store.store, hf]
  | replace it =>
    cases hk
    cases hf : s.find it.key with
    | none => exact .inr (by simp [metaApi, Store.store, hf])
    | some e =>
      refine .inl ⟨by simp [metaApi, Store.store, hf], stores it ho rfl rfl _ ?_⟩
      rw [← flags_agree ho.1]
      simp [metaApi, Store.store, hf]
  | delete k' =>
    cases hk
    refine .inl ⟨rfl, fun o2 hf => ?_⟩
    rcases hf with ⟨it', h1, _⟩ | ⟨_, rfl⟩
    · cases h1
    · exact .inr ⟨rfl, find_delete s k⟩
  | _ => exact ho.elim

/-- Goroutine `i` has made its first call and is about to make another. -/
def Pending (y : Sys S) (l : Seen S) (i : Nat) (s : S) (op : Op) (f : Res Out → Prog S) : Prop :=
  y.threads[i]? = some (.call s op f) ∧ l.results i ≠ none

structure AgInv (p q : Bytes → S) (k : Bytes) (jobs : List Op) (y : Sys S) (l : Seen S) : Prop where
  quiet : (∀ i o, jobs[i]? = some o → Writes k o → ∀ s op f, ¬ Pending y l i s op f) →
    SameEntry ((y.world (p k)).find k) ((y.world (q k)).find k)
  waits : ∀ i o, jobs[i]? = some o → Writes k o → ∀ s op f, Pending y l i s op f → Left k op (y.world (p k))

theorem find_same {s s' : Store} {k : Bytes} (hd : s'.data k = s.data k) (hn : s'.now = s.now) : s'.find k = s.find k := by
  unfold Store.find
  rw [hd, hn]

/-- Nothing about `k` changes. -/
theorem ag_frame {p q : Bytes → S} {k : Bytes} {jobs : List Op} {y y' : Sys S} {l l' : Seen S} (h : AgInv p q k jobs y l)
    (hp : (y'.world (p k)).data k = (y.world (p k)).data k ∧ (y'.world (p k)).now = (y.world (p k)).now)
    (hq : (y'.world (q k)).data k = (y.world (q k)).data k ∧ (y'.world (q k)).now = (y.world (q k)).now)
    (hpend : ∀ i o, jobs[i]? = some o → Writes k o → ∀ s op f, Pending y' l' i s op f ↔ Pending y l i s op f) :
    AgInv p q k jobs y' l' := by
  constructor
  · intro hn
    rw [find_same hp.1 hp.2, find_same hq.1 hq.2]
    exact h.quiet fun i o hi hw s op f hc => hn i o hi hw s op f ((hpend i o hi hw s op f).2 hc)
  · intro i o hi hw s op f hc
    exact left_same hp.1 hp.2 (h.waits i o hi hw s op f ((hpend i o hi hw s op f).1 hc))

theorem started {p : Bytes → S} {jobs : List Op} (moves : List Move) (l : Seen S) (i : Nat)
    (h : (l.run p jobs moves).results i ≠ none) : l.results i ≠ none ∨ .run i ∈ moves := by
  induction moves generalizing l with
  | nil => exact .inl h
  | cons m rest ih =>
    rcases ih (l.step p jobs m) h with h' | h'
    · cases m with
      | tick d => exact .inl h'
      | run j =>
        by_cases hj : j = i
        · subst hj; exact .inr (by simp)
        · refine .inl ?_
          simp only [Seen.step] at h'
          split at h'
          · simpa [Ne.symm hj] using h'
          · exact h'
    · exact .inr (List.mem_cons_of_mem _ h')

/-- Changes on the server of another key, or of the same server under another key. -/
theorem other_key {o : Op} {k k' : Bytes} (hk : o.key? = some k') (ht : ∀ k e, o ≠ .touch k e) (hne : k ≠ k' ∨ ∃ x, o = .get x)
    (s : Store) : (metaApi s o).2.data k = s.data k ∧ (metaApi s o).2.now = s.now := by
  refine ⟨?_, metaApi_now o s⟩
  rcases hne with hne | ⟨x, rfl⟩
  · exact (touches_op o k' hk ht s).2 k hne
  · simp only [metaApi]; split <;> rfl

theorem update_data {w : World S} {x y : S} {st : Store} {k : Bytes} (hd : st.data k = (w x).data k) (hn : st.now = (w x).now) :
    (World.update w x st y).data k = (w y).data k ∧ (World.update w x st y).now = (w y).now := by
  by_cases h : y = x
  · subst h; rw [update_same]; exact ⟨hd, hn⟩
  · rw [update_other _ _ h]; exact ⟨rfl, rfl⟩

theorem copyop_touch {o : Op} (h : CopyOp o) : ∀ k e, o ≠ .touch k e := by
  rintro k e rfl
  exact h

theorem not_writes {o : Op} {k k' : Bytes} (hk : o.key? = some k') (h : ¬ Writes k o) : k ≠ k' ∨ ∃ x, o = .get x := by
  by_cases hkk : k = k'
  · refine .inr ?_
    subst hkk
    cases o with
    | get x => exact ⟨x, rfl⟩
    | _ => exact absurd ⟨hk, by intro k'; simp⟩ h
  · exact .inl hkk

theorem copyFor_key {o o2 : Op} {k : Bytes} (h : CopyFor o k o2) : o2.key? = some k ∧ ∀ k e, o2 ≠ .touch k e := by
  rcases h with ⟨i, _, h, rfl⟩ | ⟨_, rfl⟩
  · exact ⟨by rw [← h]; rfl, by simp⟩
  · exact ⟨rfl, by simp⟩

theorem ag_step {H : Hashes} {r : ReplicaPool S} {p q : Bytes → S} (hp : ∀ k, r.primary.pick H k = .ok (p k))
    (hq : ∀ k, r.secondary.pick H k = .ok (q k)) (hpq : ∀ k k', p k ≠ q k') {jobs : List Op}
    (hj : ∀ o ∈ jobs, CopyOp o) {k : Bytes} (hx : ∀ o ∈ jobs, ∀ it, stored? o = some it → it.key = k → Fixed it)
    {n : Nat} {y : Sys S} {l : Seen S} (h : LinInv H r p q jobs (n + 1) y l)
    (ha : AgInv p q k jobs y l) (m : Move)
    (ex : ∀ i j oi oj, jobs[i]? = some oi → jobs[j]? = some oj → Writes k oi → Writes k oj →
      (∃ s op f, Pending y l i s op f) → (∃ s op f, Pending y l j s op f) → i = j)
    (ex' : ∀ i j oi oj, jobs[i]? = some oi → jobs[j]? = some oj → Writes k oi → Writes k oj →
      (∃ s op f, Pending (y.step m) (l.step p jobs m) i s op f) → (∃ s op f, Pending (y.step m) (l.step p jobs m) j s op f) → i = j) :
    AgInv p q k jobs (y.step m) (l.step p jobs m) := by
  cases m with
  | tick d =>
    constructor
    · intro hn
      exact sameEntry_tick (h.healthy.2 _ _) (ha.quiet hn) d
    · intro i o hi hw s op f hc
      exact left_tick (ha.waits i o hi hw s op f hc) d
  | run i =>
    cases hi : jobs[i]? with
    | none =>
      have hn : y.threads[i]? = none := by
        rw [List.getElem?_eq_none_iff] at hi ⊢
        rw [h.len]; exact hi
      have e1 : y.step (.run i) = y := by simp only [Sys.step, hn]
      have e2 : l.step p jobs (.run i) = l := by simp only [Seen.step, hi]
      rw [e1, e2]; exact ha
    | some o =>
      have hmem := List.mem_of_getElem? hi
      have hco := hj o hmem
      obtain ⟨pr, hpr, hst⟩ := h.stat i o hi
      have hlt : i < y.threads.length := (List.getElem?_eq_some_iff.1 hpr).1
      cases hres : l.results i with
      | none =>
        rw [hres] at hst
        simp only at hst
        obtain ⟨k', f, hk, hprog, hgood, hstage⟩ := stage_first (q := q) hp hq (plain_copy hco)
        rw [hst, hprog] at hpr
        have hcall := callStep_meta (p k') o y.world (h.healthy.1 _).1 (hgood _)
        have e1 : y.step (.run i) = { world := World.update y.world (p k') (metaApi (y.world (p k')) o).2
                                      threads := y.threads.set i (f (metaApi (y.world (p k')) o).1) } := by
          simp only [Sys.step, hpr, hcall]
        have hother : ∀ j, j ≠ i → (l.step p jobs (.run i)).results j = l.results j := by
          intro j hji
          simp only [Seen.step, hi, hres]
          simp [hji]
        have hpo : ∀ j, j ≠ i → ∀ s op g, Pending (y.step (.run i)) (l.step p jobs (.run i)) j s op g ↔ Pending y l j s op g := by
          intro j hji s op g
          unfold Pending
          rw [hother j hji, e1, List.getElem?_set_ne (Ne.symm hji)]
        have hthr : (y.step (.run i)).threads[i]? = some (f (metaApi (y.world (p k')) o).1) := by
          rw [e1]; exact List.getElem?_set_self hlt
        have hnp : ∀ s op g, ¬ Pending y l i s op g := fun s op g hc => hc.2 hres
        have hwq : (y.step (.run i)).world (q k) = y.world (q k) := by
          rw [e1]; exact update_other _ _ (Ne.symm (hpq k' k))
        by_cases hw : Writes k o
        · have hkk : k' = k := by have := hw.1; rw [hk] at this; exact Option.some.inj this
          subst hkk
          have hfix : ∀ it, stored? o = some it → Fixed it := by
            intro it hs
            refine hx o hmem it hs ?_
            have := hk
            cases o <;> first | cases hs; done | (cases hs; cases this; rfl)
          rcases first_left hco hw hfix (y.world (p k')) with ⟨hok, hleft⟩ | ⟨⟨e, herr⟩, hsame⟩
          · -- the call is now outstanding
            have hs := hstage (y.world (p k'))
            rw [hok] at hs
            have hpend : ∀ s op g, Pending (y.step (.run i)) (l.step p jobs (.run i)) i s op g → Left k' op ((y.step (.run i)).world (p k')) := by
              intro s op g hc
              have := hc.1
              rw [hthr, hok] at this
              have hfe := Option.some.inj this
              rw [hfe] at hs
              have hwd : (y.step (.run i)).world (p k') = (metaApi (y.world (p k')) o).2 := by
                rw [e1]; exact update_same _ _ _
              rw [hwd]
              cases hs with
              | copy k2 o2 hk2 hc2 hf2 hres2 =>
                have : k2 = k' := by rw [hk] at hk2; exact (Option.some.inj hk2).symm
                subst this
                exact hleft op hf2
              | read k2 _ n' ho => cases o <;> first | exact ho.elim | exact hco.elim
              | write k2 n' ho => cases o <;> first | exact ho.elim | exact hco.elim
            have hcases : (∃ s op g, f (.ok .done) = .call s op g) ∨ ∃ x, f (.ok .done) = .ret x := by
              cases hfe : f (.ok .done) with
              | ret x => exact .inr ⟨x, rfl⟩
              | call s op g => exact .inl ⟨s, op, g, rfl⟩
            rcases hcases with ⟨s, op, g, hfe⟩ | ⟨x, hfe⟩
            · have hpi : Pending (y.step (.run i)) (l.step p jobs (.run i)) i s op g := by
                refine ⟨by rw [hthr, hok, hfe], ?_⟩
                simp [Seen.step, hi, hres]
              constructor
              · intro hn
                exact absurd hpi (hn i o hi hw s op g)
              · intro j o' hj' hw' s' op' f' hc
                have : i = j := ex' i j o o' hi hj' hw hw' ⟨_, _, _, hpi⟩ ⟨_, _, _, hc⟩
                subst this
                exact hpend s' op' f' hc
            · -- a write always makes its second call
              exfalso
              have : f (.ok .done) = f ((metaApi (y.world (p k')) o).1) := by rw [hok]
              have hp' := hprog
              cases o with
              | get x => exact hw.2 x rfl
              | set it =>
                simp only [replicaProg, twoCalls, hp, hq, onPick, Prog.call.injEq] at hp'
                rw [← hp'.2.2] at hfe; cases hfe
              | add it =>
                simp only [replicaProg, twoCalls, hp, hq, onPick, Prog.call.injEq] at hp'
                rw [← hp'.2.2] at hfe; cases hfe
              | replace it =>
                simp only [replicaProg, twoCalls, hp, hq, onPick, Prog.call.injEq] at hp'
                rw [← hp'.2.2] at hfe; cases hfe
              | delete x =>
                simp only [replicaProg, twoCalls, hp, hq, onPick, Prog.call.injEq] at hp'
                rw [← hp'.2.2] at hfe; cases hfe
              | _ => exact hco.elim
          · -- the call failed
            refine ag_frame ha ?_ (by rw [hwq]; exact ⟨rfl, rfl⟩) ?_
            · have : (y.step (.run i)).world (p k') = y.world (p k') := by
                rw [e1]; exact (update_same _ _ _).trans hsame
              rw [this]; exact ⟨rfl, rfl⟩
            · intro j o' hj' hw' s op g
              by_cases hji : j = i
              · subst hji
                constructor
                · intro hc
                  exfalso
                  have := hc.1
                  rw [hthr] at this
                  have hs := hstage (y.world (p k'))
                  rw [Option.some.inj this, herr] at hs
                  cases hs with
                  | copy _ _ _ _ _ hr => cases hr
                  | read _ _ _ _ hr => cases hr
                  | write _ _ _ hr => cases hr
                · intro hc; exact absurd hc (hnp s op g)
              · exact hpo j hji s op g
        · have hd := other_key hk (copyop_touch hco) (not_writes hk hw) (y.world (p k'))
          refine ag_frame ha ?_ (by rw [hwq]; exact ⟨rfl, rfl⟩) ?_
          · rw [e1]; exact update_data hd.1 hd.2
          · intro j o' hj' hw' s op g
            have hji : j ≠ i := by
              rintro rfl
              rw [hi] at hj'; cases hj'
              exact hw hw'
            exact hpo j hji s op g
      | some res =>
        have e2 : l.step p jobs (.run i) = l := by simp only [Seen.step, hi, hres]
        rw [e2] at ex' ⊢
        cases pr with
        | ret x =>
          have e1 : y.step (.run i) = y := by simp only [Sys.step, hpr]
          rw [e1]; exact ha
        | call s op f =>
          rw [hres] at hst
          simp only at hst
          have hpi : Pending y l i s op f := ⟨hpr, by rw [hres]; simp⟩
          have e1 : y.step (.run i) = { world := (callStep s op y.world).2, threads := y.threads.set i (f (callStep s op y.world).1) } := by
            simp only [Sys.step, hpr]
          have hnext := stage_step hpq hst h.healthy
          cases hst with
          | read _ _ _ ho => cases o <;> first | exact ho.elim | exact hco.elim
          | write _ _ ho => cases o <;> first | exact ho.elim | exact hco.elim
          | copy k' o2 hk hc hf hres' =>
            have hcall := callStep_meta (q k') op y.world (h.healthy.1 _).1 (copies_good hc _)
            rw [hcall] at e1
            have hthr : (y.step (.run i)).threads[i]? = some (.ret (.ok .done)) := by
              rw [e1, List.getElem?_set_self hlt, copies_done hc]; rfl
            have hpo : ∀ j, j ≠ i → ∀ s op g, Pending (y.step (.run i)) l j s op g ↔ Pending y l j s op g := by
              intro j hji s op g
              unfold Pending
              rw [e1, List.getElem?_set_ne (Ne.symm hji)]
            have hwp : (y.step (.run i)).world (p k) = y.world (p k) := by
              rw [e1]; exact update_other _ _ (hpq k k')
            by_cases hw : Writes k o
            · have hkk : k' = k := by have := hw.1; rw [hk] at this; exact Option.some.inj this
              subst hkk
              have hl := ha.waits i o hi hw _ _ _ hpi
              constructor
              · intro _
                rw [hwp]
                have : (y.step (.run i)).world (q k') = (metaApi (y.world (q k')) op).2 := by
                  rw [e1]; exact update_same _ _ _
                rw [this]
                exact left_done (h.healthy.2 _ _) hl
              · intro j o' hj' hw' s' op' f' hc'
                exfalso
                by_cases hji : j = i
                · subst hji
                  have := hc'.1
                  rw [hthr] at this; cases this
                · exact hji (ex j i o' o hj' hi hw' hw ⟨_, _, _, (hpo j hji _ _ _).1 hc'⟩ ⟨_, _, _, hpi⟩)
            · have hkey := copyFor_key hf
              have hne : k ≠ k' := by
                rintro rfl
                refine hw ⟨hk, ?_⟩
                rintro x rfl
                rcases hf with ⟨_, h1, _⟩ | ⟨h1, _⟩ <;> cases h1
              have hd := other_key hkey.1 hkey.2 (.inl hne) (y.world (q k'))
              refine ag_frame ha (by rw [hwp]; exact ⟨rfl, rfl⟩) ?_ ?_
              · rw [e1]; exact update_data hd.1 hd.2
              · intro j o' hj' hw' s' op' f'
                have hji : j ≠ i := by
                  rintro rfl
                  rw [hi] at hj'; cases hj'
                  exact hw hw'
                exact hpo j hji s' op' f'

/-- C58: if no two calls that write the key `k` are ever in progress at the same time (calls on other
keys and Gets may run at any time), then whenever none is in progress the two copies of `k` have the
same value, flags and expiry.  Only expirations given as seconds from now are excluded: the two
servers then count from different moments. -/
theorem C58_agree {H : Hashes} {name : S → Bytes} {ps qs : List S} {r : ReplicaPool S} {p q : Bytes → S}
    {w : World S} {jobs : List Op} {moves : List Move} (c : PlainRun H name ps qs r p q w jobs moves)
    (hj : ∀ o ∈ jobs, CopyOp o) {k : Bytes} (hx : ∀ o ∈ jobs, ∀ it, stored? o = some it → it.key = k → Fixed it)
    (h0 : SameEntry ((w (p k)).find k) ((w (q k)).find k)) (ex : Exclusive H r w jobs k moves)
    (quiet : ∀ i o, jobs[i]? = some o → Writes k o → ¬ Busy ((Sys.start H r w jobs).run moves) moves i) :
    SameEntry ((((Sys.start H r w jobs).run moves).world (p k)).find k)
      ((((Sys.start H r w jobs).run moves).world (q k)).find k) := by
  have hpq : ∀ k k', p k ≠ q k' := fun k k' => c.rings.ne (c.primary k) (c.secondary k')
  have busy : ∀ pre i, (∃ s op f, Pending ((Sys.start H r w jobs).run pre) ((Seen.start w).run p jobs pre) i s op f) →
      Busy ((Sys.start H r w jobs).run pre) pre i := by
    rintro pre i ⟨s, op, f, hc1, hc2⟩
    refine ⟨?_, fun res hr => ?_⟩
    · rcases started pre (Seen.start w) i hc2 with h | h
      · exact absurd rfl h
      · exact h
    · rw [hc1] at hr; cases hr
  have main : ∀ n, n ≤ moves.length →
      LinInv H r p q jobs (moves.length - n) ((Sys.start H r w jobs).run (moves.take n)) ((Seen.start w).run p jobs (moves.take n))
      ∧ AgInv p q k jobs ((Sys.start H r w jobs).run (moves.take n)) ((Seen.start w).run p jobs (moves.take n)) := by
    intro n
    induction n with
    | zero =>
      intro _
      refine ⟨⟨c.healthy, fun _ => rfl, by simp [Sys.start, Sys.run], fun i o ho => ?_⟩, fun _ => h0, ?_⟩
      · exact ⟨replicaProg H r o, by simp [Sys.start, Sys.run, ho], rfl⟩
      · intro i o _ _ s op f hc
        exact absurd rfl hc.2
    | succ n ih =>
      intro hn
      obtain ⟨h1, h2⟩ := ih (by omega)
      have hlt : n < moves.length := by omega
      have e1 : moves.take (n + 1) = moves.take n ++ [moves[n]] := by simp
      have e2 : (Sys.start H r w jobs).run (moves.take (n + 1)) = ((Sys.start H r w jobs).run (moves.take n)).step moves[n] := by
        rw [e1]; exact List.foldl_append
      have e3 : (Seen.start w).run p jobs (moves.take (n + 1)) = ((Seen.start w).run p jobs (moves.take n)).step p jobs moves[n] := by
        rw [e1]; exact List.foldl_append
      have b1 := busy (moves.take n)
      have b2 := busy (moves.take (n + 1))
      rw [e2, e3] at b2 ⊢
      rw [show moves.length - n = moves.length - (n + 1) + 1 by omega] at h1
      refine ⟨lin_step c.primary c.secondary hpq c.kinds h1 _, ag_step c.primary c.secondary hpq hj hx h1 h2 _ ?_ ?_⟩
      · intro i j oi oj hi hj' hwi hwj pi pj
        exact ex _ (List.take_prefix _ _) i j oi oj hi hj' hwi hwj (b1 i pi) (b1 j pj)
      · intro i j oi oj hi hj' hwi hwj pi pj
        have := ex _ (List.take_prefix (n + 1) moves) i j oi oj hi hj' hwi hwj
        rw [e2] at this
        exact this (b2 i pi) (b2 j pj)
  have := (main moves.length (Nat.le_refl _)).2
  rw [List.take_length] at this
  exact this.quiet fun i o hi hw s op f hc => quiet i o hi hw (busy moves i ⟨s, op, f, hc⟩)

/-! ### writers at the same time -/

theorem step_set {w : World S} {ts : List (Prog S)} {i : Nat} {s : S} {f : Res Out → Prog S} {it : Item} {n : Nat}
    (ht : ts[i]? = some (.call s (.set it) f)) (hw : Healthy w (n + 1)) (hi : CopyOp (.set it)) (hx : it.expiration = 0) :
    ∃ w', (Sys.mk w ts).step (.run i) = ⟨w', ts.set i (f (.ok .done))⟩ ∧ Healthy w' n ∧ (∀ z, z ≠ s → w' z = w z)
      ∧ ∃ e, (w' s).find it.key = some e ∧ e.value = it.value ∧ e.expiry = none := by
  have hh := healthy_call hw s (.set it) hi.1
  have hs := step_call (y := ⟨w, ts⟩) (i := i) ht (hw.1 s).1 (show GoodMetaOp (w s) (.set it) from hi.1)
  rw [set_plain _ _ hi.2] at hh hs
  refine ⟨_, hs, hh, fun z hz => update_other _ _ hz, ?_⟩
  rw [update_same]
  refine ⟨⟨it.value, metaFlagsOf it, none, (w s).nextCas⟩, ?_, rfl, rfl⟩
  rw [find_put, hx]
  rfl

/-- C58: without that, the copies may differ for good.  Two Sets of one key at the same time, each with
any value: both succeed, the primary holds the one value and the secondary the other. -/
theorem C58_diverge {H : Hashes} {name : S → Bytes} {ps qs : List S} {r : ReplicaPool S}
    (hr : TwoRings H name ps qs r) {w : World S} (hw : Healthy w 4) (i1 i2 : Item) (hk : i1.key = i2.key)
    (h1 : CopyOp (.set i1)) (h2 : CopyOp (.set i2)) (x1 : i1.expiration = 0) (x2 : i2.expiration = 0)
    {p q : S} (hp : r.primary.pick H i1.key = .ok p) (hq : r.secondary.pick H i1.key = .ok q) :
    ∃ y ep eq, (Sys.start H r w [.set i1, .set i2]).run [.run 0, .run 1, .run 1, .run 0] = y
      ∧ y.threads = [.ret (.ok .done), .ret (.ok .done)]
      ∧ (y.world p).find i1.key = some ep ∧ ep.value = i2.value ∧ ep.expiry = none
      ∧ (y.world q).find i1.key = some eq ∧ eq.value = i1.value ∧ eq.expiry = none := by
  have hpq : p ≠ q := hr.ne hp hq
  have hp2 : r.primary.pick H i2.key = .ok p := by rw [← hk]; exact hp
  have hq2 : r.secondary.pick H i2.key = .ok q := by rw [← hk]; exact hq
  let c2 : Item → Prog S := fun it => .call q (.set it) (andThen outDone fun _ => .ret (.ok .done))
  let c1 : Item → Prog S := fun it => .call p (.set it) (andThen outDone fun _ => c2 it)
  have p1 : replicaProg H r (.set i1) = c1 i1 := by simp only [replicaProg, twoCalls, hp, hq, onPick, c1, c2]
  have p2 : replicaProg H r (.set i2) = c1 i2 := by simp only [replicaProg, twoCalls, hp2, hq2, onPick, c1, c2]
  obtain ⟨w1, s1, hw1, o1, _⟩ := step_set (ts := [c1 i1, c1 i2]) (i := 0) (n := 3) rfl hw h1 x1
  obtain ⟨w2, s2, hw2, o2, ep, f2, v2, y2⟩ := step_set (ts := [c2 i1, c1 i2]) (i := 1) (n := 2) rfl hw1 h2 x2
  obtain ⟨w3, s3, hw3, o3, _⟩ := step_set (ts := [c2 i1, c2 i2]) (i := 1) (n := 1) rfl hw2 h2 x2
  obtain ⟨w4, s4, hw4, o4, eq, f4, v4, y4⟩ := step_set (ts := [c2 i1, .ret (.ok .done)]) (i := 0) (n := 0) rfl hw3 h1 x1
  refine ⟨⟨w4, [.ret (.ok .done), .ret (.ok .done)]⟩, ep, eq, ?_, rfl, ?_, v2, y2, f4, v4, y4⟩
  · show ((((Sys.mk w [replicaProg H r (.set i1), replicaProg H r (.set i2)]).step (.run 0)).step (.run 1)).step (.run 1)).step (.run 0) = _
    rw [p1, p2, s1]
    refine (congrArg (fun y => ((Sys.step y (.run 1)).step (.run 0))) s2).trans ?_
    refine (congrArg (fun y => Sys.step y (.run 0)) s3).trans ?_
    exact s4
  · show (w4 p).find i1.key = _
    rw [o4 p hpq, o3 p hpq, hk]
    exact f2

/-! ### concrete cases -/

/-- The servers that hold the keys in the pool of `ReplicaWitness`. -/
theorem abc_primary : ∃ p : Bytes → Bytes, ∀ k, abc.primary.pick realHashes k = .ok (p k) :=
  Classical.skolem.1 fun k => by
    obtain ⟨s, _, e⟩ := C05_member abc_rings.primary abc_rings.some1 k
    exact ⟨s, e⟩

def mix : List Op :=
  [.set { key := b!"x", value := b!"1" }, .add { key := b!"x", value := b!"2" }, .increment b!"x" 5 0,
   .get b!"x", .delete b!"y", .replace { key := b!"y", value := b!"3", expiration := 60 }]

/-- C58: a situation it applies to, with every schedule. -/
example (moves : List Move) (hl : moves.length < 2 ^ 62) : ∃ p,
    PlainRun realHashes id [b!"a", b!"b"] [b!"c"] abc p (fun _ => b!"c") empties mix moves := by
  obtain ⟨p, hp⟩ := abc_primary
  refine ⟨p, abc_rings, hp, abc_c, ?_, empties_healthy _ hl⟩
  intro o ho
  simp only [mix, List.mem_cons, List.not_mem_nil, or_false] at ho
  rcases ho with rfl | rfl | rfl | rfl | rfl | rfl
  · exact ⟨⟨⟨by decide, by decide, by decide, by decide⟩, by simp⟩, rfl⟩
  · exact ⟨⟨⟨by decide, by decide, by decide, by decide⟩, by simp⟩, rfl⟩
  · exact ⟨(by decide : Key b!"x"), by decide⟩
  · exact (by decide : Key b!"x")
  · exact (by decide : Key b!"y")
  · exact ⟨⟨⟨by decide, by decide, by decide, by decide⟩, by simp⟩, rfl⟩

/-- C58: two Sets of "x" at the same time leave "2" on the primary and "1" on the secondary. -/
theorem C58_concrete : ∃ y ep eq, (Sys.start realHashes abc empties
        [.set { key := b!"x", value := b!"1" }, .set { key := b!"x", value := b!"2" }]).run [.run 0, .run 1, .run 1, .run 0] = y
      ∧ y.threads = [.ret (.ok .done), .ret (.ok .done)]
      ∧ (y.world b!"a").find b!"x" = some ep ∧ ep.value = b!"2" ∧ ep.expiry = none
      ∧ (y.world b!"c").find b!"x" = some eq ∧ eq.value = b!"1" ∧ eq.expiry = none :=
  C58_diverge abc_rings (empties_healthy _ (by decide)) { key := b!"x", value := b!"1" } { key := b!"x", value := b!"2" } rfl
    ⟨⟨⟨by decide, by decide, by decide, by decide⟩, by simp⟩, rfl⟩
    ⟨⟨⟨by decide, by decide, by decide, by decide⟩, by simp⟩, rfl⟩ rfl rfl abc_a (abc_c _)

/-- C58: a schedule in which the writers of "x" are never in progress at the same time, although the
Set of "y" is in progress all along. -/
example : Exclusive realHashes abc empties
    [.set { key := b!"x", value := b!"1" }, .set { key := b!"y", value := b!"2" }, .delete b!"x"] b!"x"
    [.run 1, .run 0, .run 0, .run 2, .run 2, .run 1] := by
  intro pre hpre i j oi oj hi hj hwi hwj bi bj
  have idx : ∀ i o, ([.set { key := b!"x", value := b!"1" }, .set { key := b!"y", value := b!"2" }, .delete b!"x"] : List Op)[i]? = some o →
      Writes b!"x" o → i = 0 ∨ i = 2 := by
    intro i o h hw
    match i, h with
    | 0, _ => exact .inl rfl
    | 1, h => simp at h; subst h; exact absurd hw.1 (by decide)
    | 2, _ => exact .inr rfl
  by_cases h : i = j
  · exact h
  · -- one of them is number 2, and it has begun
    exfalso
    have h02 : Busy ((Sys.start realHashes abc empties
        [.set { key := b!"x", value := b!"1" }, .set { key := b!"y", value := b!"2" }, .delete b!"x"]).run pre) pre 0 ∧ Move.run 2 ∈ pre := by
      rcases idx i oi hi hwi with rfl | rfl <;> rcases idx j oj hj hwj with rfl | rfl
      · exact absurd rfl h
      · exact ⟨bi, bj.1⟩
      · exact ⟨bj, bi.1⟩
      · exact absurd rfl h
    obtain ⟨hb, hm⟩ := h02
    obtain ⟨rest, hrest⟩ := hpre
    have hpre : ∃ tail, pre = [.run 1, .run 0, .run 0, .run 2] ++ tail := by
      match pre, hrest, hm with
      | [], _, hm => simp at hm
      | [_], h, hm => simp at h hm; rw [← hm] at h; simp at h
      | [_, _], h, hm => simp at h hm; obtain ⟨rfl, rfl, _⟩ := h; simp at hm
      | [_, _, _], h, hm => simp at h hm; obtain ⟨rfl, rfl, rfl, _⟩ := h; simp at hm
      | _ :: _ :: _ :: _ :: tail, h, _ => simp at h; obtain ⟨rfl, rfl, rfl, rfl, _⟩ := h; exact ⟨tail, rfl⟩
    obtain ⟨tail, rfl⟩ := hpre
    obtain ⟨pr, h1, h2⟩ := within_run 0 ([.run 1, .run 0, .run 0, .run 2] ++ tail) 2 (Sys.start realHashes abc empties
        [.set { key := b!"x", value := b!"1" }, .set { key := b!"y", value := b!"2" }, .delete b!"x"])
      (replicaProg realHashes abc (.set { key := b!"x", value := b!"1" })) rfl (within_two ..)
    rw [List.count_append, show List.count (Move.run 0) [.run 1, .run 0, .run 0, .run 2] = 2 by decide,
      show 2 - (2 + tail.count (.run 0)) = 0 by omega] at h2
    cases h2 with
    | ret _ x => exact hb.2 x h1

end Props
end Verif
