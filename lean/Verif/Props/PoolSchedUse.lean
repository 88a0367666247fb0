import Verif.Props.PoolSchedWitness
/-!
C67: what the goroutines sharing one `SinglePool` can rely on: `Add` as a lock, `Increment` as a counter, `GetMulti` of
keys of one server.
-/

namespace Verif
namespace Props
open Kv Spec Mc Pool Cluster

variable {S : Type} [DecidableEq S]

/-- C67: keys of one server: a `GetMulti` has returned after one moment, with what one memcached answers then. -/
theorem C67_one_server (part : Bytes → S) (name : Bytes) (ks : List Bytes) (s : S) (hks : ks ≠ [])
    (hs : ∀ k ∈ ks, part k = s) (x : Doing S) (hx : Begins part (.getMulti ks) x) (t t' : Store) (x' : Doing S)
    (h : Acts part name t x t' x') : t' = t ∧ x'.result = some (textApi name t (.getMulti ks)).1 := by
  cases hx with
  | one hk => cases hk
  | multi hn hm =>
    rename_i ss
    obtain ⟨k0, hk0⟩ := List.exists_mem_of_ne_nil _ hks
    have hss : ss = [s] := by
      have hmem : s ∈ ss := (hm s).2 ⟨k0, hk0, hs k0 hk0⟩
      have hall : ∀ y ∈ ss, y = s := by
        intro y hy
        obtain ⟨k, hk, rfl⟩ := (hm y).1 hy
        exact hs k hk
      cases ss with
      | nil => cases hmem
      | cons a as =>
        have ha := hall a (by simp)
        cases as with
        | nil => rw [ha]
        | cons b bs =>
          have hb := hall b (by simp)
          rw [ha, hb] at hn
          simp at hn
    subst hss
    have hf : ks.filter (fun k => decide (part k = s)) = ks := by
      rw [List.filter_eq_self]
      intro k hk
      exact decide_eq_true (hs k hk)
    simp only [List.map_cons, List.map_nil, hf] at h
    cases h
    exact ⟨rfl, by simp only [List.nil_append]; rfl⟩

/-! ### Runs in which every call is on one key -/

/-- The state of call `j` in such a run. -/
theorem solo_shape {part : Bytes → S} {name : Bytes} {jobs : List Step} {t : Store}
    (hj : ∀ st ∈ jobs, ∃ o k, st = .op o ∧ o.key? = some k) {moves : List Move} {z : Solo S}
    (h : SoloRun part name jobs ⟨t, fun _ => none⟩ moves z) (j : Nat) :
    z.calls j = none ∨ ∃ o, jobs[j]? = some (.op o) ∧ (z.calls j = some (.one o.noCas) ∨ ∃ r, z.calls j = some (.done r)) := by
  induction h with
  | nil => exact Or.inl rfl
  | snoc hrun hstep ih =>
    cases hstep with
    | tick => exact ih
    | none _ => exact ih
    | begin hz hjob hb =>
      rename_i z i st x
      by_cases hi : j = i
      · subst hi
        obtain ⟨o, k, rfl, hk⟩ := hj st (List.mem_of_getElem? hjob)
        have hk' : ((Step.op o).call (z.results jobs.length)).key? = some k := (noCas_key o).trans hk
        refine Or.inr ⟨o, hjob, Or.inl ?_⟩
        show (if j = j then some x else _) = _
        rw [if_pos rfl]
        have : x = .one ((Step.op o).call (z.results jobs.length)) := by
          generalize (Step.op o).call (z.results jobs.length) = c at hb hk'
          cases hb with
          | one _ => rfl
          | multi _ _ => cases hk'
          | wipe _ _ => cases hk'
        rw [this]
        rfl
      · show (if j = i then _ else z.calls j) = none ∨ _
        have e : (if j = i then some x else z.calls j) = z.calls j := if_neg hi
        rw [e]
        rcases ih with h1 | ⟨o, h1, h2⟩
        · exact Or.inl h1
        · refine Or.inr ⟨o, h1, ?_⟩
          show (if j = i then some x else z.calls j) = _ ∨ ∃ r, (if j = i then some x else z.calls j) = _
          rw [e]
          exact h2
    | act hz hact =>
      rename_i z i x x' t'
      by_cases hi : j = i
      · subst hi
        have e : (if j = j then some x' else z.calls j) = some x' := if_pos rfl
        right
        rcases ih with h1 | ⟨o, h1, h2⟩
        · rw [hz] at h1; cases h1
        · refine ⟨o, h1, Or.inr ?_⟩
          show ∃ r, (if j = j then some x' else z.calls j) = some (.done r)
          rw [e]
          rcases h2 with h2 | ⟨r, h2⟩
          · rw [hz] at h2
            cases h2
            cases hact
            exact ⟨_, rfl⟩
          · rw [hz] at h2
            cases h2
            cases hact
      · have e : (if j = i then some x' else z.calls j) = z.calls j := if_neg hi
        show (if j = i then some x' else z.calls j) = none ∨ ∃ o, jobs[j]? = some (.op o) ∧
          ((if j = i then some x' else z.calls j) = _ ∨ ∃ r, (if j = i then some x' else z.calls j) = _)
        rw [e]
        exact ih

/-- What a run in which every call is on one key is made of: time passing, begins, and one moment for each call. -/
theorem solo_induct {part : Bytes → S} {name : Bytes} {jobs : List Step} {t : Store}
    (hj : ∀ st ∈ jobs, ∃ o k, st = .op o ∧ o.key? = some k) {P : Store → (Nat → Option (Res Out)) → Prop}
    (h0 : P t fun _ => none) (htick : ∀ s f d, P s f → P (s.tick d) f)
    (hact : ∀ s f j o, P s f → jobs[j]? = some (.op o) → f j = none →
      P (textApi name s o.noCas).2 fun i => if i = j then some (textApi name s o.noCas).1 else f i)
    {moves : List Move} {z : Solo S} (h : SoloRun part name jobs ⟨t, fun _ => none⟩ moves z) : P z.store z.returned := by
  induction h with
  | nil => exact h0
  | snoc hrun hstep ih =>
    cases hstep with
    | tick => exact htick _ _ _ ih
    | none _ => exact ih
    | begin hz hjob hb =>
      rename_i z i st x
      have hsame : Solo.returned ⟨z.store, fun k => if k = i then some x else z.calls k⟩ = z.returned := by
        funext k
        unfold Solo.returned
        dsimp only
        split
        · rename_i hk
          subst hk
          rw [hz]
          rcases solo_shape hj (hrun.snoc (.begin hz hjob hb)) k with h1 | ⟨o, -, h1 | ⟨r, h1⟩⟩
          · exact absurd ((if_pos rfl : (if k = k then some x else z.calls k) = some x).symm.trans h1) (by simp)
          · have : x = .one o.noCas := by
              have h2 : (if k = k then some x else z.calls k) = some (.one o.noCas) := h1
              rw [if_pos rfl] at h2
              cases h2
              rfl
            rw [this]; rfl
          · have h2 : (if k = k then some x else z.calls k) = some (.done r) := h1
            rw [if_pos rfl] at h2
            cases h2
            generalize st.call (z.results jobs.length) = c at hb
            cases hb
        · rfl
      show P z.store (Solo.returned ⟨z.store, fun k => if k = i then some x else z.calls k⟩)
      rw [hsame]
      exact ih
    | act hz ha =>
      rename_i z i x x' t'
      rcases solo_shape hj hrun i with h1 | ⟨o, hjob, h1 | ⟨r, h1⟩⟩
      · rw [hz] at h1; cases h1
      · rw [hz] at h1
        cases h1
        cases ha
        have hnone : z.returned i = none := by unfold Solo.returned; rw [hz]; rfl
        have := hact z.store z.returned i o ih hjob hnone
        have hsame : Solo.returned ⟨(textApi name z.store o.noCas).2,
            fun k => if k = i then some (Doing.done (textApi name z.store o.noCas).1) else z.calls k⟩
            = fun k => if k = i then some (textApi name z.store o.noCas).1 else z.returned k := by
          funext k
          unfold Solo.returned
          dsimp only
          split
          · rfl
          · rfl
        rw [← hsame] at this
        exact this
      · rw [hz] at h1
        cases h1
        cases ha

theorem sameAnswer_some {a : Res Out} {b : Option (Res Out)} (h : SameAnswer (some a) b) : ∃ b', b = some b' ∧ Alike a b' := by
  cases b with
  | none => exact h.elim
  | some b' => exact ⟨b', rfl, h⟩

/-- What a pool of some servers starts with, and the goroutines do, in `C67_lock` and `C67_counter`. -/
structure Started (H : Hashes) (name : S → Bytes) (servers : List S) (r : Ring S) (p : Bytes → S) (or : Orders S)
    (w : World S) (t : Store) (jobs : List Step) (moves : List Move) : Prop where
  ring : IsRing H name servers r
  nonempty : servers ≠ []
  names : DistinctNames name servers
  pick : ∀ k, r.pick H k = .ok (p k)
  orders : (∀ j, IterOrder (or.keys j)) ∧ ∀ j, IterOrder (or.servers j)
  good : ∀ s ∈ servers, GoodStore (w s) ∧ PosCas (w s)
  goodT : GoodStore t ∧ PosCas t
  now : ∀ s ∈ servers, (w s).now = t.now
  same : ∀ k, SameEntry ((w (p k)).data k) (t.data k)
  jobs : ∀ st ∈ jobs, GoodStep st
  cas : (∀ s ∈ servers, (w s).nextCas + moves.length < 2 ^ 63) ∧ t.nextCas + moves.length < 2 ^ 63

theorem Started.refines {H : Hashes} {name : S → Bytes} {servers : List S} {r : Ring S} {p : Bytes → S} {or : Orders S}
    {w : World S} {t : Store} {jobs : List Step} {moves : List Move} (h : Started H name servers r p or w t jobs moves) :
    ∃ z, SoloRun p [] jobs ⟨t, fun _ => none⟩ moves z
      ∧ (∀ j, SameAnswer (((Pool.Sys.start w).run H name r or jobs moves).returned j) (z.returned j))
      ∧ (∀ k, SameEntry ((((Pool.Sys.start w).run H name r or jobs moves).world (p k)).data k) (z.store.data k)) :=
  C67_refines H name servers r h.ring h.nonempty h.names p h.pick or h.orders.1 h.orders.2 [] w t h.good h.goodT h.now h.same
    jobs h.jobs moves h.cas.1 h.cas.2

theorem add_outcome (name : Bytes) (s : Store) (i : Item) (h0 : i.expiration = 0) :
    (s.find i.key = none ∧ (textApi name s (.add i)).1 = .ok .done
      ∧ ∃ e, (textApi name s (.add i)).2.data i.key = some e ∧ e.expiry = none)
    ∨ ((∃ e, s.find i.key = some e) ∧ (textApi name s (.add i)).1 ≠ .ok .done ∧ (textApi name s (.add i)).2 = s) := by
  cases hf : s.find i.key with
  | none =>
    have h : s.store .add i.key i.value (flagsOf i) i.expiration
        = (.stored, s.put i.key i.value (flagsOf i) (expiryOf s.now i.expiration)) := by unfold Store.store; rw [hf]
    simp only [textApi, h]
    left
    refine ⟨trivial, if_pos trivial, ⟨_, put_at _ _ _ _ _, ?_⟩⟩
    rw [h0]
    rfl
  | some e =>
    have h : s.store .add i.key i.value (flagsOf i) i.expiration = (.notStored, s) := by unfold Store.store; rw [hf]
    simp only [textApi, h]
    exact Or.inr ⟨⟨e, rfl⟩, by simp, trivial⟩

theorem find_forever {s : Store} {k : Bytes} {e : Entry} (h : s.data k = some e) (hx : e.expiry = none) : s.find k = some e := by
  unfold Store.find
  rw [h]
  simp [Entry.live, hx]

/-- C67, a lock: any number of goroutines `Add` the same key, without expiration, to the same pool; in no schedule do
two of them succeed. -/
theorem C67_lock (H : Hashes) (name : S → Bytes) (servers : List S) (r : Ring S) (p : Bytes → S) (or : Orders S)
    (w : World S) (t : Store) (k : Bytes) (items : List Item) (hi : ∀ i ∈ items, i.key = k ∧ i.expiration = 0)
    (moves : List Move) (h : Started H name servers r p or w t (items.map fun i => .op (.add i)) moves) (a b : Nat)
    (ha : ((Pool.Sys.start w).run H name r or (items.map fun i => .op (.add i)) moves).returned a = some (.ok .done))
    (hb : ((Pool.Sys.start w).run H name r or (items.map fun i => .op (.add i)) moves).returned b = some (.ok .done)) :
    a = b := by
  obtain ⟨z, hrun, hans, -⟩ := h.refines
  have hjobs : ∀ st ∈ items.map (fun i => Step.op (.add i)), ∃ o k, st = .op o ∧ o.key? = some k := by
    intro st hst
    obtain ⟨i, -, rfl⟩ := List.mem_map.1 hst
    exact ⟨_, i.key, rfl, rfl⟩
  have key := solo_induct (P := fun s f => (∀ i j, f i = some (.ok .done) → f j = some (.ok .done) → i = j)
      ∧ ((∃ i, f i = some (.ok .done)) → ∃ e, s.data k = some e ∧ e.expiry = none)) hjobs
    ⟨fun _ _ h => (by cases h), fun ⟨_, h⟩ => (by cases h)⟩ (fun s f d hP => hP) ?_ hrun
  · have fin : ∀ j, ((Pool.Sys.start w).run H name r or (items.map fun i => .op (.add i)) moves).returned j = some (.ok .done) →
        z.returned j = some (.ok .done) := by
      intro j hj
      have := hans j
      rw [hj] at this
      obtain ⟨b', e, hal⟩ := sameAnswer_some this
      rw [e]
      have hbl : blind (.ok .done) = blind b' := hal
      cases b' with
      | ok x => cases x <;> first | rfl | (cases hbl)
      | err e => cases hbl
      | panic => cases hbl
    exact key.1 a b (fin a ha) (fin b hb)
  · intro s f j o hP hjob hnone
    rw [List.getElem?_map] at hjob
    cases hij : items[j]? with
    | none => rw [hij] at hjob; cases hjob
    | some i =>
      rw [hij] at hjob
      simp only [Option.map_some, Option.some.injEq, Step.op.injEq] at hjob
      subst hjob
      obtain ⟨rfl, h0⟩ := hi i (List.mem_of_getElem? hij)
      show (∀ a b, (if a = j then some (textApi [] s (.add i)).1 else f a) = _ → (if b = j then some (textApi [] s (.add i)).1 else f b) = _ → a = b)
        ∧ ((∃ a, (if a = j then some (textApi [] s (.add i)).1 else f a) = _) → ∃ e, (textApi [] s (.add i)).2.data i.key = some e ∧ e.expiry = none)
      rcases add_outcome [] s i h0 with ⟨h1, h2, h3⟩ | ⟨h1, h2, h3⟩
      · have hno : ∀ a, f a ≠ some (.ok .done) := by
          intro a ha
          obtain ⟨e, he, hx⟩ := hP.2 ⟨a, ha⟩
          rw [find_forever he hx] at h1
          cases h1
        refine ⟨fun a b ha hb => ?_, fun _ => h3⟩
        split at ha
        · rename_i haj
          split at hb
          · rename_i hbj; rw [haj, hbj]
          · exact absurd hb (hno b)
        · exact absurd ha (hno a)
      · refine ⟨fun a b ha hb => ?_, fun ⟨a, ha⟩ => ?_⟩
        · split at ha
          · simp only [Option.some.injEq] at ha
            exact absurd ha h2
          · split at hb
            · simp only [Option.some.injEq] at hb
              exact absurd hb h2
            · exact hP.1 a b ha hb
        · split at ha
          · simp only [Option.some.injEq] at ha
            exact absurd ha h2
          · rw [h3]; exact hP.2 ⟨a, ha⟩

/-- The sum of `g 0`, ..., `g (n - 1)`. -/
def sumUpTo (g : Nat → Nat) (n : Nat) : Nat := ((List.range n).map g).sum

theorem sumUpTo_succ (g : Nat → Nat) (n : Nat) : sumUpTo g (n + 1) = sumUpTo g n + g n := by
  unfold sumUpTo
  rw [List.range_succ, List.map_append, List.sum_append]
  simp

theorem sumUpTo_add {g g' : Nat → Nat} {j d : Nat} (hoff : ∀ i, i ≠ j → g' i = g i) (hat : g' j = g j + d) (n : Nat) :
    sumUpTo g' n = sumUpTo g n + if j < n then d else 0 := by
  induction n with
  | zero => rfl
  | succ n ih =>
    rw [sumUpTo_succ, sumUpTo_succ, ih]
    by_cases hn : n = j
    · subst hn
      rw [hat, if_neg (by omega), if_pos (by omega)]
      omega
    · rw [hoff n hn]
      by_cases hj : j < n
      · rw [if_pos hj, if_pos (by omega)]; omega
      · rw [if_neg hj, if_neg (by omega)]; omega

theorem sumUpTo_mono {g g' : Nat → Nat} (h : ∀ i, g i ≤ g' i) (n : Nat) : sumUpTo g n ≤ sumUpTo g' n := by
  induction n with
  | zero => exact Nat.le_refl _
  | succ n ih => rw [sumUpTo_succ, sumUpTo_succ]; have := h n; omega

/-- The deltas of the calls that have returned, added up. -/
def sumReturned (deltas : List Nat) (f : Nat → Option (Res Out)) : Nat :=
  sumUpTo (fun j => if (f j).isSome then deltas[j]?.getD 0 else 0) deltas.length

/-- All deltas added up. -/
def sumAll (deltas : List Nat) : Nat := sumUpTo (fun j => deltas[j]?.getD 0) deltas.length

theorem sumReturned_le (deltas : List Nat) (f : Nat → Option (Res Out)) : sumReturned deltas f ≤ sumAll deltas :=
  sumUpTo_mono (fun j => by split <;> omega) _

theorem incr_outcome (name : Bytes) (s : Store) (k : Bytes) (d : Nat) (x : Int) (e : Entry) (m : Nat)
    (he : s.data k = some e) (hx : e.expiry = none) (hm : counterOf e.value = some m) (hb : m + d < 2 ^ 63) :
    (textApi name s (.increment k d x)).1 = .ok (.num (m + d : Nat))
    ∧ ∃ e', (textApi name s (.increment k d x)).2.data k = some e' ∧ e'.expiry = none ∧ counterOf e'.value = some (m + d) := by
  have hc : count true m d = m + d := by
    unfold count
    rw [if_pos rfl, Nat.mod_eq_of_lt]
    have : (2 : Nat) ^ 63 < 2 ^ 64 := by decide
    omega
  have ha : s.arith true k d = (.value (m + d), s.put k (padTo e.value.length (natDec (m + d))) e.flags e.expiry) := by
    unfold Store.arith
    rw [find_forever he hx]
    dsimp only
    rw [hm]
    dsimp only
    rw [hc]
  have hA : arithApi s true k (d : Int) = (.ok (.num (m + d : Nat)), s.put k (padTo e.value.length (natDec (m + d))) e.flags e.expiry) := by
    unfold arithApi
    rw [if_neg (by omega)]
    simp only [Int.toNat_natCast, ha, counted]
    rw [if_pos hb]
  have hT : textApi name s (.increment k d x) = arithApi s true k (d : Int) := rfl
  rw [hT, hA]
  refine ⟨rfl, _, put_at _ _ _ _ _, hx, counterOf_padTo _ _ ?_⟩
  have : (2 : Nat) ^ 63 < 2 ^ 64 := by decide
  omega

/-- C67, a counter: any number of goroutines `Increment` the same counter (a stored number without expiration) through
the same pool by positive amounts; in every schedule the counter is at any moment what it was plus the amounts of the
calls that have returned: none is lost; all calls that return succeed, with a number
above the start, and no two with the same number. -/
theorem C67_counter (H : Hashes) (name : S → Bytes) (servers : List S) (r : Ring S) (p : Bytes → S) (or : Orders S)
    (w : World S) (t : Store) (k : Bytes) (e : Entry) (m : Nat)
    (he : t.data k = some e) (hx : e.expiry = none) (hm : counterOf e.value = some m)
    (deltas : List Nat) (hd : ∀ d ∈ deltas, 0 < d) (hsum : m + sumAll deltas < 2 ^ 63)
    (moves : List Move) (h : Started H name servers r p or w t (deltas.map fun d : Nat => .op (.increment k d 0)) moves)
    (y : Pool.Sys S) (hy : y = (Pool.Sys.start w).run H name r or (deltas.map fun d : Nat => .op (.increment k d 0)) moves) :
    (∃ e', (y.world (p k)).find k = some e' ∧ counterOf e'.value = some (m + sumReturned deltas y.returned))
    ∧ (∀ j a, y.returned j = some a → ∃ v : Nat, a = .ok (.num v) ∧ m < v ∧ v ≤ m + sumReturned deltas y.returned)
    ∧ (∀ i j a, y.returned i = some a → y.returned j = some a → i = j) := by
  subst hy
  obtain ⟨z, hrun, hans, hsame⟩ := h.refines
  generalize (Pool.Sys.start w).run H name r or (deltas.map fun d : Nat => .op (.increment k d 0)) moves = y at hans hsame
  have hjobs : ∀ st ∈ deltas.map (fun d : Nat => Step.op (.increment k (d : Int) 0)), ∃ o k, st = .op o ∧ o.key? = some k := by
    intro st hst
    obtain ⟨d, -, rfl⟩ := List.mem_map.1 hst
    exact ⟨_, k, rfl, rfl⟩
  have key := solo_induct (P := fun s f =>
      (∃ e', s.data k = some e' ∧ e'.expiry = none ∧ counterOf e'.value = some (m + sumReturned deltas f))
      ∧ (∀ j a, f j = some a → ∃ v : Nat, a = .ok (.num v) ∧ m < v ∧ v ≤ m + sumReturned deltas f)
      ∧ (∀ i j a, f i = some a → f j = some a → i = j)) hjobs
    ⟨⟨e, he, hx, by
        have : sumReturned deltas (fun _ => none) = 0 := by
          unfold sumReturned
          generalize deltas.length = n
          induction n with
          | zero => rfl
          | succ n ih => rw [sumUpTo_succ, ih]; rfl
        rw [this]; exact hm⟩, fun _ _ h => (by cases h), fun _ _ _ h => (by cases h)⟩ (fun s f d hP => hP) ?_ hrun
  · -- back to the pool
    have hret : y.returned = z.returned := by
      funext j
      have h1 := hans j
      cases hz : z.returned j with
      | none =>
        rw [hz] at h1
        cases hyj : y.returned j with
        | none => rfl
        | some a => rw [hyj] at h1; exact h1.elim
      | some b =>
        rw [hz] at h1
        obtain ⟨v, rfl, -⟩ := key.2.1 j b hz
        cases hyj : y.returned j with
        | none => rw [hyj] at h1; exact h1.elim
        | some a =>
          rw [hyj] at h1
          have hbl : blind a = blind (.ok (.num v)) := by
            have h2 : Alike a (.ok (.num (v : Int))) := h1
            unfold Alike at h2
            split at h2
            · rename_i hh; cases hh
            · exact h2
          cases a with
          | ok x => cases x <;> first | (cases hbl; rfl) | (cases hbl)
          | err e => cases hbl
          | panic => cases hbl
    obtain ⟨⟨e', h1, h2, h3⟩, h4, h5⟩ := key
    rw [hret]
    refine ⟨?_, h4, h5⟩
    have hs := hsame k
    rw [h1] at hs
    cases hyk : (y.world (p k)).data k with
    | none => rw [hyk] at hs; exact hs.elim
    | some e'' =>
      rw [hyk] at hs
      obtain ⟨s1, -, s3⟩ := hs
      exact ⟨e'', find_forever hyk (s3.trans h2), by rw [s1]; exact h3⟩
  · intro s f j o hP hjob hnone
    rw [List.getElem?_map] at hjob
    cases hij : deltas[j]? with
    | none => rw [hij] at hjob; cases hjob
    | some d =>
      rw [hij] at hjob
      simp only [Option.map_some, Option.some.injEq, Step.op.injEq] at hjob
      subst hjob
      obtain ⟨⟨e', h1, h2, h3⟩, h4, h5⟩ := hP
      have hjn : j < deltas.length := (List.getElem?_eq_some_iff.1 hij).1
      have hpos : 0 < d := hd d (List.mem_of_getElem? hij)
      have hstep : ∀ a : Res Out, sumReturned deltas (fun i => if i = j then some a else f i) = sumReturned deltas f + d := by
        intro a
        unfold sumReturned
        rw [sumUpTo_add (j := j) (d := d) (g := fun j => if (f j).isSome then deltas[j]?.getD 0 else 0), if_pos hjn]
        · intro i hi; simp [hi]
        · simp [hnone, hij]
      have hle := sumReturned_le deltas (fun i => if i = j then some (Res.ok Out.done) else f i)
      rw [hstep] at hle
      obtain ⟨o1, e'', o2, o3, o4⟩ := incr_outcome [] s k d 0 e' (m + sumReturned deltas f) h1 h2 h3 (by omega)
      show (∃ e', (textApi [] s (.increment k d 0)).2.data k = some e' ∧ _) ∧
        (∀ i a, (if i = j then some (textApi [] s (.increment k d 0)).1 else f i) = some a → _)
        ∧ (∀ i i' a, (if i = j then some (textApi [] s (.increment k d 0)).1 else f i) = some a →
            (if i' = j then some (textApi [] s (.increment k d 0)).1 else f i') = some a → i = i')
      refine ⟨⟨e'', o2, o3, ?_⟩, ?_, ?_⟩
      · rw [hstep, o4, Nat.add_assoc]
      · intro i a ha
        rw [hstep]
        split at ha
        · rw [o1] at ha
          simp only [Option.some.injEq] at ha
          exact ⟨_, ha.symm, by omega, by omega⟩
        · obtain ⟨v, v1, v2, v3⟩ := h4 i a ha
          exact ⟨v, v1, v2, by omega⟩
      · intro i i' a ha ha'
        split at ha <;> split at ha'
        · rename_i e1 e2; rw [e1, e2]
        · rw [o1] at ha
          simp only [Option.some.injEq] at ha
          obtain ⟨v, v1, v2, v3⟩ := h4 i' a ha'
          rw [← ha] at v1
          simp only [Res.ok.injEq, Out.num.injEq] at v1
          omega
        · rw [o1] at ha'
          simp only [Option.some.injEq] at ha'
          obtain ⟨v, v1, v2, v3⟩ := h4 i a ha
          rw [← ha'] at v1
          simp only [Res.ok.injEq, Out.num.injEq] at v1
          omega
        · exact h5 i i' a ha ha'

/-! ### The hypotheses are met -/

/-- C67: the two empty servers "a" and "b" meet the hypotheses of `C67_refines`, `C67_lock` and `C67_counter`, with any
acceptable calls. -/
theorem C67_concrete (jobs : List Step) (hjobs : ∀ st ∈ jobs, GoodStep st) (moves : List Move) (hm : moves.length < 2 ^ 62) :
    ∃ p : Bytes → Bytes, p b!"x" = b!"a" ∧ p b!"y" = b!"b"
      ∧ Started realHashes id [b!"a", b!"b"] ab p inOrder empties (emptyStore 1000) jobs moves := by
  have hpick : ∀ k, ∃ s, ab.pick realHashes k = .ok s := fun k => by
    obtain ⟨s, -, hp⟩ := C05_member ab_ring (by simp) k
    exact ⟨s, hp⟩
  obtain ⟨p, hp⟩ := Classical.axiomOfChoice hpick
  have hx := hp b!"x"
  have hy := hp b!"y"
  rw [show ab.pick realHashes b!"x" = .ok b!"a" from abc_a] at hx
  rw [show ab.pick realHashes b!"y" = .ok b!"b" from abc_b] at hy
  simp only [Res.ok.injEq] at hx hy
  refine ⟨p, hx.symm, hy.symm, ab_ring, by simp, ab_names, hp, ⟨fun _ _ => .refl _, fun _ _ => .refl _⟩, ?_, ?_, fun _ _ => rfl,
    fun _ => trivial, hjobs, ?_⟩
  · exact fun _ _ => ⟨emptyStore_good 1000, emptyStore_pos 1000⟩
  · exact ⟨emptyStore_good 1000, emptyStore_pos 1000⟩
  · have h62 : (2 : Nat) ^ 63 = 2 ^ 62 + 2 ^ 62 := by decide
    have : 1 + moves.length < 2 ^ 63 := by omega
    exact ⟨fun _ _ => this, this⟩

/-- Two goroutines compete for the lock "x", in any schedule: not both get it. -/
example (moves : List Move) (hm : moves.length < 2 ^ 62) :
    ¬ (((Pool.Sys.start empties).run realHashes id ab inOrder
          [.op (.add { key := b!"x", value := b!"1" }), .op (.add { key := b!"x", value := b!"2" })] moves).returned 0 = some (.ok .done)
      ∧ ((Pool.Sys.start empties).run realHashes id ab inOrder
          [.op (.add { key := b!"x", value := b!"1" }), .op (.add { key := b!"x", value := b!"2" })] moves).returned 1
          = some (.ok .done)) := by
  rintro ⟨h0, h1⟩
  obtain ⟨p, -, -, h⟩ := C67_concrete ([{ key := b!"x", value := b!"1" }, { key := b!"x", value := b!"2" }].map fun i => .op (.add i))
    (by
      intro st hst
      simp only [List.map_cons, List.map_nil, List.mem_cons, List.not_mem_nil, or_false] at hst
      rcases hst with rfl | rfl <;> exact ⟨by decide, by decide, by decide, by decide⟩) moves hm
  have := C67_lock realHashes id _ ab p inOrder empties (emptyStore 1000) b!"x" _ (by
    intro i hi
    simp only [List.mem_cons, List.not_mem_nil, or_false] at hi
    rcases hi with rfl | rfl <;> exact ⟨rfl, rfl⟩) moves h 0 1 h0 h1
  exact absurd this (by decide)

/-- Server "a" with the counter "x" at 41, and the same counter in one memcached, for `C67_counter`: two goroutines
increment it by 1 and by 5, in any schedule. -/
example (moves : List Move) (hm : moves.length < 2 ^ 62) : ∃ p : Bytes → Bytes,
    Started realHashes id [b!"a", b!"b"] ab p inOrder (counters none) ((emptyStore 1000).put b!"x" b!"41" 0 none)
      ([1, 5].map fun d : Nat => .op (.increment b!"x" d 0)) moves
    ∧ ((emptyStore 1000).put b!"x" b!"41" 0 none).data b!"x" = some ⟨b!"41", 0, none, 1⟩
    ∧ counterOf b!"41" = some 41 ∧ 41 + sumAll [1, 5] < 2 ^ 63 := by
  obtain ⟨p, hx, -, h⟩ := C67_concrete ([1, 5].map fun d : Nat => .op (.increment b!"x" d 0))
    (by
      intro st hst
      simp only [List.map_cons, List.map_nil, List.mem_cons, List.not_mem_nil, or_false] at hst
      rcases hst with rfl | rfl <;> exact ⟨by decide, by decide⟩) moves hm
  have hg : GoodStore ((emptyStore 1000).put b!"x" b!"41" 0 none) ∧ PosCas ((emptyStore 1000).put b!"x" b!"41" 0 none) :=
    ⟨good_put _ _ (by decide), posCas_put (emptyStore_pos 1000) _ _ _ _⟩
  refine ⟨p, ⟨h.ring, h.nonempty, h.names, h.pick, h.orders, fun _ _ => hg, hg, fun _ _ => rfl, ?_, h.jobs, ?_⟩, rfl,
    by decide +kernel, by decide +kernel⟩
  · intro k
    show SameEntry (((emptyStore 1000).put b!"x" b!"41" 0 none).data k) (((emptyStore 1000).put b!"x" b!"41" 0 none).data k)
    cases ((emptyStore 1000).put b!"x" b!"41" 0 none).data k with
    | none => trivial
    | some e => exact ⟨rfl, rfl, rfl⟩
  · have h62 : (2 : Nat) ^ 63 = 2 ^ 62 + 2 ^ 62 := by decide
    have : 2 + moves.length < 2 ^ 63 := by omega
    exact ⟨fun _ _ => this, this⟩

end Props
end Verif
