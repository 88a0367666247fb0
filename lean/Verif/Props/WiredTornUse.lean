import Verif.Props.RewiredReplica
import Verif.Props.WiredExact
/-!
C87 and C88: a counter and a lock, through replica pools whose connections may break, and be replaced.
-/

namespace Verif
namespace Wired
open Kv Spec Mc Pool Cluster Props

variable {S : Type} [DecidableEq S] {p q : Bytes → S} {proc : Nat → Nat} {errs : Err → Prop} {again : Bool}

/-- What may still be carried out on one connection, without the Gets. -/
def mayCome (c : Nat) (s : S) (x : Nat × S × Op) : Option Op :=
  if x.1 = c ∧ x.2.1 = s ∧ changing x.2.2 = true then some x.2.2 else none

/-- Methods of replica pools as calls that are carried out in no order. -/
structure Likened (l : List (Deed S Op)) (z : Torn S) (m : List (Deed S Op)) (y : Frail S) : Prop where
  seen : seenOf m = seenOf l
  world : y.world = z.world
  calls : y.calls = z.calls
  adrift : ∀ c s, y.adrift.filterMap (mayCome c s) = z.adrift c s
  called : ∀ i o x, z.calls i = some (o, x) → (i, o) ∈ Spec.Wired.starts (seenOf l)

theorem Likened.called_snoc {l : List (Deed S Op)} {z : Torn S} {m : List (Deed S Op)} {y : Frail S} (t : Likened l z m y) {d : Deed S Op}
    {f : Nat → Option (Op × Option (Res Out))} (hf : ∀ i o x, f i = some (o, x) → (∃ x, z.calls i = some (o, x)) ∨ (i, o) ∈ Spec.Wired.starts (seenOf [d])) :
    ∀ i o x, f i = some (o, x) → (i, o) ∈ Spec.Wired.starts (seenOf (l ++ [d])) := by
  intro i o x h
  rw [seenOf_append, starts_append]
  rcases hf i o x h with ⟨x', h⟩ | h
  · exact List.mem_append_left _ (t.called i o x' h)
  · exact List.mem_append_right _ h

theorem likened {w : World S} {l : List (Deed S Op)} {z : Torn S} (h : TornRun again p q proc (Torn.start w) l z) (hio : errs .io)
    (hr : ∀ l' z' m y, l' <+: l → LooseRun (atOnce p) errs (Frail.start w) m y → Likened l' z' m y → ∀ i o k n, z'.calls i = some (o, some (.ok (.num n))) →
      o.key? = some k → IsArith o → (z'.world (p k)).find k = none → errs .itemNotFound) :
    ∃ m y, LooseRun (atOnce p) errs (Frail.start w) m y ∧ Likened l z m y := by
  induction h with
  | nil => exact ⟨[], _, .nil, rfl, rfl, rfl, fun _ _ => rfl, fun _ _ _ h => nomatch h⟩
  | @snoc l d z z' hl hs ih =>
    obtain ⟨m, y, hy, t⟩ := ih fun l' z' m y hp => hr l' z' m y (hp.trans (List.prefix_append _ _))
    have hseen : ∀ {d' : Deed S Op}, seenOf [d'] = seenOf [d] → seenOf (m ++ [d']) = seenOf (l ++ [d]) := fun h => by
      rw [seenOf_append, seenOf_append, t.seen, h]
    have keep : ∀ {i : Nat} {o : Op} {x x' : Option (Res Out)}, z.calls i = some (o, x) →
        ∀ j o' y, (if j = i then some (o, x') else z.calls j) = some (o', y) → (∃ y, z.calls j = some (o', y)) ∨ (j, o') ∈ Spec.Wired.starts (seenOf [d]) := by
      intro i o x x' hi j o' y hj
      by_cases e : j = i
      · rw [if_pos e] at hj; cases hj; exact .inl ⟨x, e ▸ hi⟩
      · rw [if_neg e] at hj; exact .inl ⟨y, hj⟩
    have same : ∀ (f : Nat → Option (Op × Option (Res Out))), f = z.calls →
        ∀ j o' y, f j = some (o', y) → (∃ y, z.calls j = some (o', y)) ∨ (j, o') ∈ Spec.Wired.starts (seenOf [d]) := by
      intro f hf j o' y hj
      exact .inl ⟨y, hf ▸ hj⟩
    cases hs with
    | tick d =>
      exact ⟨_, _, hy.snoc (.tick y d), hseen rfl, congrArg (World.tick · d) t.world, t.calls, t.adrift, t.called_snoc (same _ rfl)⟩
    | start i o g1 =>
      refine ⟨_, _, hy.snoc (.start y i o (by rw [t.calls]; exact g1)), hseen rfl, t.world, by rw [t.calls], t.adrift, t.called_snoc fun j o' y hj => ?_⟩
      have hj : (if j = i then some (o, none) else z.calls j) = _ := hj
      by_cases e : j = i
      · rw [if_pos e] at hj; cases hj; rw [e]; exact .inr (.head _)
      · rw [if_neg e] at hj; exact .inl ⟨y, hj⟩
    | finish i o r g1 =>
      refine ⟨_, _, hy.snoc (.finish y i o r (by rw [t.calls]; exact g1)), hseen rfl, t.world, by rw [t.calls], t.adrift, t.called_snoc fun j o' y hj => ?_⟩
      have hj : (if j = i then none else z.calls j) = _ := hj
      by_cases e : j = i
      · rw [if_pos e] at hj; cases hj
      · rw [if_neg e] at hj; exact .inl ⟨y, hj⟩
    | breaks c s => exact ⟨_, _, hy.snoc (.breaks y (.breaks c s) y.broken rfl rfl), hseen rfl, t.world, t.calls, t.adrift, t.called_snoc (same _ rfl)⟩
    | mends c s => exact ⟨_, _, hy.snoc (.breaks y (.mends c s) y.broken rfl rfl), hseen rfl, t.world, t.calls, t.adrift, t.called_snoc (same _ rfl)⟩
    | run i o g1 =>
      exact ⟨_, _, hy.snoc (.run y i o (by rw [t.calls]; exact g1)), hseen rfl, by rw [← t.world], by rw [← t.world, ← t.calls], t.adrift,
        t.called_snoc (keep g1)⟩
    | lose i o k res g1 =>
      exact ⟨_, _, hy.snoc (.lose y i o res .io (by rw [t.calls]; exact g1) hio), hseen rfl, t.world, by rw [← t.calls], t.adrift, t.called_snoc (keep g1)⟩
    | misses i o k n g1 g2 g3 g4 =>
      exact ⟨_, _, hy.snoc (.lose y i o _ .itemNotFound (by rw [t.calls]; exact g1) (hr l z m y (List.prefix_append _ _) hy t i o k n g1 g2 g3 g4)), hseen rfl, t.world,
        by rw [← t.calls], t.adrift, t.called_snoc (keep g1)⟩
    | fail i o k g1 =>
      refine ⟨_, _, hy.snoc (.fail y i (proc i) (p k) o .io (by rw [t.calls]; exact g1) hio), hseen rfl, t.world, by rw [← t.calls], fun c s => ?_, t.called_snoc (keep g1)⟩
      show (y.adrift ++ [(proc i, p k, o)]).filterMap (mayCome c s) = if c = proc i ∧ s = p k then z.adrift c s ++ [o].filter changing else z.adrift c s
      rw [List.filterMap_append, t.adrift]
      by_cases e : c = proc i ∧ s = p k
      · rw [if_pos e]
        congr 1
        cases hc : changing o <;> simp [mayCome, e.1, e.2, hc]
      · rw [if_neg e]
        have : mayCome c s (proc i, p k, o) = none := if_neg fun g => e ⟨g.1.symm, g.2.1.symm⟩
        simp [this]
    | late c s o l1 l2 g1 =>
      have g2 := t.adrift c s
      rw [g1] at g2
      obtain ⟨m1, m2, e1, e2, e3⟩ := List.filterMap_eq_append_iff.1 g2
      obtain ⟨n1, x, n2, e4, e5, e6, e7⟩ := List.filterMap_eq_cons_iff.1 e3
      have hx : x = (c, s, o) := by
        unfold mayCome at e6
        split at e6
        · next h =>
          obtain ⟨a, b, o'⟩ := x
          obtain ⟨rfl, rfl, -⟩ := h
          cases e6
          rfl
        · cases e6
      subst hx
      refine ⟨_, _, hy.snoc (.late y c s o (m1 ++ n1) n2 (by rw [e1, e4, List.append_assoc])), hseen rfl, by rw [← t.world], t.calls, fun c' s' => ?_, t.called_snoc (same _ rfl)⟩
      show (m1 ++ n1 ++ n2).filterMap (mayCome c' s') = if c' = c ∧ s' = s then l1 ++ l2 else z.adrift c' s'
      by_cases e : c' = c ∧ s' = s
      · obtain ⟨rfl, rfl⟩ := e
        rw [if_pos ⟨rfl, rfl⟩, List.filterMap_append, List.filterMap_append, e2, e7, List.filterMap_eq_nil_iff.2 e5, List.append_nil]
      · rw [if_neg e, ← t.adrift c' s', e1, e4]
        have : mayCome c' s' (c, s, o) = none := if_neg fun g => e ⟨g.1.symm, g.2.1.symm⟩
        simp [List.filterMap_append, this]

/-! ### What memcached does -/

omit [DecidableEq S] in
theorem atOnce_key [DecidableEq S] {o : Op} {k : Bytes} (hk : o.key? = some k) (w : World S) :
    atOnce p w o = ((metaApi (w (p k)) o).1, World.update w (p k) (metaApi (w (p k)) o).2) := by
  unfold atOnce
  rw [hk]

theorem adds_meta (k : Bytes) : Adds p k (atOnce p) := by
  intro w n e ⟨e0, h1, h2, h3⟩ hb
  have h4 := increment_store (d := 1) e (find_forever h1 h2) h3 (by decide) hb
  rw [atOnce_key (k := k) rfl]
  dsimp only
  rw [update_same, h4]
  refine ⟨rfl, _, put_at _ _ _ _ _, h2, counterOf_padTo _ _ ?_⟩
  have : (2 : Nat) ^ 63 < 2 ^ 64 := by decide
  have : (1 : Int).toNat = 1 := rfl
  omega

theorem locks_meta : Locks p (atOnce p) := by
  intro w it h0
  rw [atOnce_key (k := it.key) rfl]
  dsimp only
  rw [update_same]
  have ho : textApi [] (w (p it.key)) (.add it) = metaApi (w (p it.key)) (.add it) := rfl
  rw [← ho]
  rcases add_outcome [] (w (p it.key)) it h0 with ⟨g1, g2, g3⟩ | ⟨⟨e, g1⟩, g2, g3⟩
  · exact ⟨fun _ => ⟨g3, fun ⟨e, h1, h2⟩ => by rw [find_forever h1 h2] at g1; cases g1⟩, fun _ => g3, fun _ => g2⟩
  · exact ⟨fun h => absurd h g2, fun h => by rw [g3]; exact h, fun h => by rw [g1] at h; cases h⟩

/-! ### Every method that returns has been called -/

theorem under_keep {tr : List (Ev Op)} {i : Nat} {o : Op} (h : Spec.Wired.Under tr i o) {es : List (Ev Op)} (he : ∀ r, .finish i r ∉ es) :
    Spec.Wired.Under (tr ++ es) i o := by
  obtain ⟨t1, t2, rfl, h2⟩ := h
  refine ⟨t1, t2 ++ es, by simp, fun r hr => ?_⟩
  rcases List.mem_append.1 hr with hr | hr
  · exact h2 r hr
  · exact he r hr

theorem answered_keep {tr : List (Ev Op)} {i : Nat} {o : Op} {r : Res Out} (h : Spec.Wired.Answered tr i o r) (es : List (Ev Op)) :
    Spec.Wired.Answered (tr ++ es) i o r := by
  obtain ⟨t1, t2, rfl, h2⟩ := h
  exact ⟨t1, t2 ++ es, by simp, h2⟩

theorem torn_answered {w : World S} {l : List (Deed S Op)} {z : Torn S} (h : TornRun again p q proc (Torn.start w) l z) :
    (∀ i o x, z.calls i = some (o, x) → Spec.Wired.Under (seenOf l) i o)
      ∧ ∀ i r, .finish i r ∈ seenOf l → ∃ o, Spec.Wired.Answered (seenOf l) i o r := by
  induction h with
  | nil => exact ⟨fun _ _ _ h => (nomatch h), fun _ _ h => nomatch h⟩
  | @snoc l d z z' _ hs ih =>
    obtain ⟨h1, h2⟩ := ih
    rw [seenOf_append]
    have old : (∀ i r, .finish i r ∉ seenOf [d]) → ∀ i r, .finish i r ∈ seenOf l ++ seenOf [d] → ∃ o, Spec.Wired.Answered (seenOf l ++ seenOf [d]) i o r := by
      intro hd i r hi
      obtain ⟨o, ho⟩ := h2 i r ((List.mem_append.1 hi).resolve_right (hd i r))
      exact ⟨o, answered_keep ho _⟩
    have move : ∀ {i : Nat} {o : Op} {x x' : Option (Res Out)}, (∀ i r, .finish i r ∉ seenOf [d]) → z.calls i = some (o, x) →
        ∀ j o' y, (if j = i then some (o, x') else z.calls j) = some (o', y) → Spec.Wired.Under (seenOf l ++ seenOf [d]) j o' := by
      intro i o x x' hd hi j o' y hj
      refine under_keep ?_ (hd j)
      by_cases e : j = i
      · rw [if_pos e] at hj; cases hj; exact h1 j o x (e ▸ hi)
      · rw [if_neg e] at hj; exact h1 j o' y hj
    cases hs with
    | tick d => exact ⟨fun i o x hi => under_keep (h1 i o x hi) (by simp [seenOf]), old (by simp [seenOf])⟩
    | breaks c s => exact ⟨fun i o x hi => under_keep (h1 i o x hi) (by simp [seenOf]), old (by simp [seenOf])⟩
    | mends c s => exact ⟨fun i o x hi => under_keep (h1 i o x hi) (by simp [seenOf]), old (by simp [seenOf])⟩
    | late c s => exact ⟨fun i o x hi => under_keep (h1 i o x hi) (by simp [seenOf]), old (by simp [seenOf])⟩
    | run i o g => exact ⟨move (by simp [seenOf]) g, old (by simp [seenOf])⟩
    | lose i o k res g => exact ⟨move (by simp [seenOf]) g, old (by simp [seenOf])⟩
    | misses i o k n g => exact ⟨move (by simp [seenOf]) g, old (by simp [seenOf])⟩
    | fail i o k g => exact ⟨move (by simp [seenOf]) g, old (by simp [seenOf])⟩
    | start i o g =>
      refine ⟨fun j o' x hj => ?_, old (by simp [seenOf])⟩
      have hj : (if j = i then some (o, none) else z.calls j) = _ := hj
      by_cases e : j = i
      · rw [if_pos e] at hj
        cases hj
        rw [e]
        exact ⟨seenOf l, [], rfl, by simp⟩
      · rw [if_neg e] at hj
        exact under_keep (h1 j o' x hj) (by simp [seenOf])
    | finish i o r g =>
      refine ⟨fun j o' x hj => ?_, fun j r' hj => ?_⟩
      · have hj : (if j = i then none else z.calls j) = _ := hj
        by_cases e : j = i
        · rw [if_pos e] at hj; cases hj
        · rw [if_neg e] at hj
          refine under_keep (h1 j o' x hj) fun r hr => ?_
          cases List.mem_singleton.1 hr
          exact e rfl
      · rcases List.mem_append.1 hj with hj | hj
        · obtain ⟨o, ho⟩ := h2 j r' hj
          exact ⟨o, answered_keep ho _⟩
        · cases List.mem_singleton.1 hj
          exact ⟨o, seenOf l, [], rfl, h1 _ o _ g⟩

/-! ### A counter and a lock -/

theorem torn_counter {w : World S} {k : Bytes} {e : Entry} {m : Nat} (he : (w (p k)).data k = some e) (hx : e.expiry = none)
    (hm : counterOf e.value = some m) {l : List (Deed S Op)} {z : Torn S} (h : TornRun again p q proc (Torn.start w) l z)
    (hops : ∀ i o, (i, o) ∈ Spec.Wired.starts (seenOf l) → ∃ e, o = .increment k 1 e)
    (hb : m + (Spec.Wired.starts (seenOf l)).length < 2 ^ 63) :
    ∃ n, n ≤ (Spec.Wired.starts (seenOf l)).length
      ∧ (∃ e', (z.world (p k)).find k = some e' ∧ counterOf e'.value = some (m + n))
      ∧ (Spec.Wired.numbers (seenOf l)).Nodup ∧ (∀ v ∈ Spec.Wired.numbers (seenOf l), (m : Int) < v ∧ v ≤ (m + n : Nat))
      ∧ (∀ i r, .finish i r ∈ seenOf l → r = .err .io ∨ ∃ n, r = .ok (.num n))
      ∧ ((∀ i, z.calls i = none) → (Spec.Wired.starts (seenOf l)).length = (Spec.Wired.finishes (seenOf l)).length) := by
  obtain ⟨m', y, h1, t⟩ := likened (errs := (· = .io)) h rfl fun l' z' m' y hp hy t i o k' n hi hk _ hn => by
    obtain ⟨l'', rfl⟩ := hp
    have hst : Spec.Wired.starts (seenOf (l' ++ l'')) = Spec.Wired.starts (seenOf l') ++ Spec.Wired.starts (seenOf l'') := by
      rw [seenOf_append, starts_append]
    rw [hst] at hb
    rw [List.length_append] at hb
    have g := ticking (adds_meta k) he hx hm hy (by rw [t.seen]; exact fun i o ho => hops i o (by rw [hst]; exact List.mem_append_left _ ho))
      (by rw [t.seen]; omega)
    obtain ⟨e1, rfl⟩ := hops i o (by rw [hst]; exact List.mem_append_left _ (t.called i o _ hi))
    cases hk
    obtain ⟨e', g1, g2, -⟩ := g.value
    rw [t.world] at g1
    rw [find_forever g1 g2] at hn
    cases hn
  have g := ticking (adds_meta k) he hx hm h1 (by rw [t.seen]; exact hops) (by rw [t.seen]; exact hb)
  obtain ⟨ws, -, hc⟩ := loose_count h1
  rw [t.seen] at g hc
  obtain ⟨e', g1, g2, g3⟩ := g.value
  rw [t.world] at g1
  refine ⟨carriedOut m', by omega, ⟨e', find_forever g1 g2, g3⟩, g.fresh, g.shown, fun i r hi => (g.seen i r hi).imp (fun ⟨e, h1, h2⟩ => h1 ▸ h2) id, fun hz => ?_⟩
  rw [← t.seen]
  exact loose_back h1 fun i => by rw [t.calls]; exact hz i

theorem torn_lock {w : World S} {k : Bytes} {l : List (Deed S Op)} {z : Torn S} (h : TornRun again p q proc (Torn.start w) l z)
    (hops : ∀ i o, (i, o) ∈ Spec.Wired.starts (seenOf l) → ∃ it : Item, o = .add it ∧ it.key = k ∧ it.expiration = 0) :
    (Spec.Wired.winners (seenOf l)).length ≤ 1
      ∧ (Spec.Wired.winners (seenOf l) ≠ [] → ∃ e, (z.world (p k)).find k = some e)
      ∧ ((w (p k)).find k = none → Spec.Wired.starts (seenOf l) ≠ [] → (∀ i, z.calls i = none) → (∀ i, .finish i (.err .io) ∉ seenOf l) →
          (Spec.Wired.winners (seenOf l)).length = 1) := by
  obtain ⟨m', y, h1, t⟩ := likened (errs := (· = .io)) h rfl fun l' z' m y hp _ t i o k n hi _ ha _ => by
    obtain ⟨l'', rfl⟩ := hp
    obtain ⟨it, rfl, -, -⟩ := hops i o (by rw [seenOf_append, starts_append]; exact List.mem_append_left _ (t.called i o _ hi))
    exact ha.elim
  have g := locking locks_meta h1 (by rw [t.seen]; exact hops)
  rw [t.seen] at g
  have few : (Spec.Wired.winners (seenOf l)).length ≤ 1 := by
    rcases g.few with g | ⟨g, -⟩
    · rw [g]; exact Nat.zero_le _
    · omega
  refine ⟨few, fun hw => ?_, fun h0 hs hz hio => ?_⟩
  · obtain ⟨e, g1, g2⟩ := g.taken (.inl hw)
    rw [t.world] at g1
    exact ⟨e, find_forever g1 g2⟩
  · have := somebody_won locks_meta h0 h1 (by rw [t.seen]; exact hops) (by rw [t.seen]; exact hs) (fun i => by rw [t.calls]; exact hz i)
      (by rw [t.seen]; exact fun i e he => he ▸ hio i)
    rw [t.seen] at this
    have := List.length_pos_iff.2 this
    omega

section
variable {U : Setup S Op} {H : Hashes} {name : S → Bytes} {ps qs : List S} {r : ReplicaPool S}
    {w : World S} {tr : List (Ev Op)} {x : State S}

/-- **C87**, a counter: goroutines of any number of processes add one to a counter through replica pools, while
connections break at any moment.  On the primary the counter is at least what it was plus the successes, and at most what
it was plus the calls; every call that has returned has returned either a connection error or a number that the counter has reached,
no two the same.  When all have returned, none with a connection error, it is exactly what it was plus the calls. -/
theorem C87_counter (c : TornUse U H name ps qs r p q w tr x) {k : Bytes} {e : Entry} {m : Nat} (he : (w (p k)).data k = some e) (hx : e.expiry = none)
    (hm : counterOf e.value = some m) (hops : ∀ i o, (i, o) ∈ Spec.Wired.starts tr → ∃ e, o = .increment k 1 e)
    (hb : m + (Spec.Wired.starts tr).length < 2 ^ 63) :
    (∃ e' v, (x.world (p k)).find k = some e' ∧ counterOf e'.value = some v
      ∧ m + (Spec.Wired.numbers tr).length ≤ v ∧ v ≤ m + (Spec.Wired.starts tr).length
      ∧ (Spec.Wired.numbers tr).Nodup ∧ (∀ n ∈ Spec.Wired.numbers tr, (m : Int) < n ∧ n ≤ v)
      ∧ (∀ i r, .finish i r ∈ tr → r = .err .io ∨ ∃ n, r = .ok (.num n))
      ∧ ((∀ i, x.prog i = none) → (∀ i, .finish i (.err .io) ∉ tr) → v = m + (Spec.Wired.starts tr).length)) := by
  obtain ⟨l, z, h1, h2, h3, -, h5⟩ := C87_pool c
  obtain ⟨n, g1, ⟨e', g2, g3⟩, g4, g5, g6, g7⟩ := torn_counter he hx hm h1 (by rw [h2]; exact hops) (by rw [h2]; exact hb)
  rw [h2] at g1 g4 g5 g6 g7
  rw [h3] at g2
  have := few_numbers g4 g5
  refine ⟨e', _, g2, g3, by omega, by omega, g4, g5, g6, fun hb he => ?_⟩
  rw [g7 fun i => (h5 i).2 (hb i), ← numbers_length fun i r hi => (g6 i r hi).resolve_left (by rintro rfl; exact he _ hi)]
  rw [g7 fun i => (h5 i).2 (hb i), ← numbers_length fun i r hi => (g6 i r hi).resolve_left (by rintro rfl; exact he _ hi)] at g1
  omega

/-- **C87**, a lock: goroutines of any number of processes `Add` the same key through replica pools, without expiration,
while connections break at any moment.  At most one is told that it succeeded, and if one is, the key is there.  If it was
not there at first, and all have returned, none with a connection error, exactly one is. -/
theorem C87_lock (c : TornUse U H name ps qs r p q w tr x) {k : Bytes}
    (hops : ∀ i o, (i, o) ∈ Spec.Wired.starts tr → ∃ it : Item, o = .add it ∧ it.key = k ∧ it.expiration = 0) :
    (Spec.Wired.winners tr).length ≤ 1
      ∧ (Spec.Wired.winners tr ≠ [] → ∃ e, (x.world (p k)).find k = some e)
      ∧ ((w (p k)).find k = none → Spec.Wired.starts tr ≠ [] → (∀ i, x.prog i = none) → (∀ i, .finish i (.err .io) ∉ tr) →
          (Spec.Wired.winners tr).length = 1) := by
  obtain ⟨l, z, h1, h2, h3, -, h5⟩ := C87_pool c
  obtain ⟨g1, g2, g3⟩ := torn_lock h1 (by rw [h2]; exact hops)
  rw [h2] at g1 g2 g3
  rw [h3] at g2
  exact ⟨g1, g2, fun h0 hs hb hio => g3 h0 hs (fun i => (h5 i).2 (hb i)) hio⟩

end
end Wired

namespace Rewired
open Kv Spec Mc Pool Cluster Props
open Wired (Setup Ev)

section
variable {S : Type} [DecidableEq S] {U : Setup S Op} {H : Hashes} {name : S → Bytes} {ps qs : List S} {r : ReplicaPool S} {p q : Bytes → S}
    {w : World S} {tr : List (Ev Op)} {x : State S}

/-- **C88**, a counter: as C87_counter, with connections that break and are replaced. -/
theorem C88_counter (c : RetornUse U H name ps qs r p q w tr x) {k : Bytes} {e : Entry} {m : Nat} (he : (w (p k)).data k = some e) (hx : e.expiry = none)
    (hm : counterOf e.value = some m) (hops : ∀ i o, (i, o) ∈ Spec.Wired.starts tr → ∃ e, o = .increment k 1 e)
    (hb : m + (Spec.Wired.starts tr).length < 2 ^ 63) :
    (∃ e' v, (x.world (p k)).find k = some e' ∧ counterOf e'.value = some v
      ∧ m + (Spec.Wired.numbers tr).length ≤ v ∧ v ≤ m + (Spec.Wired.starts tr).length
      ∧ (Spec.Wired.numbers tr).Nodup ∧ (∀ n ∈ Spec.Wired.numbers tr, (m : Int) < n ∧ n ≤ v)
      ∧ (∀ i r, .finish i r ∈ tr → r = .err .io ∨ ∃ n, r = .ok (.num n))
      ∧ ((∀ i, x.prog i = none) → (∀ i, .finish i (.err .io) ∉ tr) → v = m + (Spec.Wired.starts tr).length)) := by
  obtain ⟨l, z, h1, h2, h3, -, h5⟩ := C88_pool c
  obtain ⟨n, g1, ⟨e', g2, g3⟩, g4, g5, g6, g7⟩ := Wired.torn_counter he hx hm h1 (by rw [h2]; exact hops) (by rw [h2]; exact hb)
  rw [h2] at g1 g4 g5 g6 g7
  rw [h3] at g2
  have := Wired.few_numbers g4 g5
  refine ⟨e', _, g2, g3, by omega, by omega, g4, g5, g6, fun hb he => ?_⟩
  rw [g7 fun i => (h5 i).2 (hb i), ← Wired.numbers_length fun i r hi => (g6 i r hi).resolve_left (by rintro rfl; exact he _ hi)]
  rw [g7 fun i => (h5 i).2 (hb i), ← Wired.numbers_length fun i r hi => (g6 i r hi).resolve_left (by rintro rfl; exact he _ hi)] at g1
  omega

/-- **C88**, a lock: as C87_lock, with connections that break and are replaced. -/
theorem C88_lock (c : RetornUse U H name ps qs r p q w tr x) {k : Bytes}
    (hops : ∀ i o, (i, o) ∈ Spec.Wired.starts tr → ∃ it : Item, o = .add it ∧ it.key = k ∧ it.expiration = 0) :
    (Spec.Wired.winners tr).length ≤ 1
      ∧ (Spec.Wired.winners tr ≠ [] → ∃ e, (x.world (p k)).find k = some e)
      ∧ ((w (p k)).find k = none → Spec.Wired.starts tr ≠ [] → (∀ i, x.prog i = none) → (∀ i, .finish i (.err .io) ∉ tr) →
          (Spec.Wired.winners tr).length = 1) := by
  obtain ⟨l, z, h1, h2, h3, -, h5⟩ := C88_pool c
  obtain ⟨g1, g2, g3⟩ := Wired.torn_lock h1 (by rw [h2]; exact hops)
  rw [h2] at g1 g2 g3
  rw [h3] at g2
  exact ⟨g1, g2, fun h0 hs hb hio => g3 h0 hs (fun i => (h5 i).2 (hb i)) hio⟩

end
end Rewired
end Verif
