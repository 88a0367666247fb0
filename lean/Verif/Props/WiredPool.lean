import Verif.Spec.WiredPool
import Verif.Props.WiredReplicaRest
import Verif.Props.PoolSched
/-!
C84 for `SinglePool`s over text connections.
-/

namespace Verif
namespace Wired
open Kv Spec Mc Pool Cluster Props
open Joint (Short short_ret short_then short_pick short_more)

variable {S : Type} [DecidableEq S]

theorem told_append {M : Type} (l m : List (Ev M)) (j : Nat) : Spec.Wired.told (l ++ m) j = (Spec.Wired.told l j).or (Spec.Wired.told m j) := by
  induction l with
  | nil => simp [Spec.Wired.told]
  | cons x l ih =>
    cases x with
    | finish i r =>
      show (if i = j then some r else Spec.Wired.told (l ++ m) j) = (if i = j then some r else Spec.Wired.told l j).or _
      by_cases h : i = j
      · rw [if_pos h, if_pos h]; rfl
      · rw [if_neg h, if_neg h]; exact ih
    | tick d => exact ih
    | start i m => exact ih

/-- The pools in the two descriptions of what happens at one moment. -/
structure PoolRel (tr : List (Ev (Nat × Op))) (a : Moment S) (y : Pool.Sys S) : Prop where
  world : y.world = a.world
  each : ∀ i, (a.prog i = none ∧ y.calls i = none ∧ Spec.Wired.told tr i = none)
    ∨ (∃ pr, a.prog i = some pr ∧ y.calls i = some pr ∧ Spec.Wired.told tr i = none ∧ ∃ m, Ev.start i m ∈ tr)
    ∨ ∃ r, a.prog i = none ∧ y.calls i = some (.ret r) ∧ Spec.Wired.told tr i = some r ∧ ∃ m, Ev.start i m ∈ tr

theorem PoolRel.results {tr : List (Ev (Nat × Op))} {a : Moment S} {y : Pool.Sys S} (h : PoolRel tr a y) (n : Nat) (st : Spec.Step)
    (hst : ∀ item ref, st = .setCas item ref → Spec.Wired.told tr ref ≠ none) : st.call (Spec.Wired.results tr n) = st.call (y.results n) := by
  cases st with
  | op o => rfl
  | setCas item ref =>
    have ht := hst item ref rfl
    show Op.set _ = Op.set _
    rw [tokenOf_same (l := Spec.Wired.results tr n) (l' := y.results n) (n := ref) (n' := ref)]
    rw [pool_results_get]
    unfold Spec.Wired.results
    rw [List.getElem?_map]
    by_cases hn : ref < n
    · rw [List.getElem?_range hn, if_pos hn]
      show some ((Spec.Wired.told tr ref).getD .panic) = _
      rcases h.each ref with ⟨-, -, h1⟩ | ⟨pr, -, -, h1, -⟩ | ⟨r, -, h2, h1, -⟩
      · exact absurd h1 ht
      · exact absurd h1 ht
      · rw [h1, returned_eq, h2]; rfl
    · rw [List.getElem?_eq_none (by simpa using hn), if_neg hn]; rfl

variable {H : Hashes} {name : S → Bytes} {servers : List S} {r : Ring S} {p : Bytes → S}

theorem _root_.Verif.Props.PoolSim.good {y : Pool.Sys S} {z : Solo S} {as bs : List (Res Out)} (h : PoolSim servers p name r y z as bs) {j : Nat} {s : S} {o : Op}
    {k : Res Out → Prog S} (hj : y.calls j = some (.call s o k)) : GoodOp o ∧ GoodStore (y.world s) := by
  rcases h.calls j with ⟨h1, -⟩ | ⟨pr, x, h1, -, hrel⟩
  · rw [h1] at hj; cases hj
  rw [h1] at hj
  injection hj with hj
  subst hj
  generalize hpr : Prog.call s o k = pr at hrel
  cases hrel with
  | one st k' fin hg hw hsa hsb hk hok herr hpanic =>
    injection hpr with e1 e2 e3
    subst e1 e2
    obtain ⟨-, -, -, gA, -⟩ := h.inv.calls name [] st hg hw
    exact ⟨gA, h.inv.good _ (h.inv.mem _)⟩
  | multi es calls accA accB he hc ha =>
    cases es with
    | nil => cases hpr
    | cons e es =>
      cases calls with
      | nil => simp at he
      | cons c cs =>
        obtain ⟨n, ks⟩ := e
        obtain ⟨s', ks'⟩ := c
        simp only [List.map_cons, List.cons.injEq, Prod.mk.injEq] at he
        obtain ⟨⟨hfind, rfl⟩, he⟩ := he
        obtain ⟨hks, hkk⟩ := hc (s', ks) (by simp)
        have hsm : s' ∈ servers := by
          obtain ⟨k, hk⟩ := List.exists_mem_of_ne_nil _ hks
          have hpk : p k = s' := (hkk k hk).1
          rw [← hpk]; exact h.inv.mem k
        simp only [multiProg, hfind] at hpr
        injection hpr with e1 e2 e3
        subst e1 e2
        exact ⟨⟨hks, fun k hk => (hkk k hk).2⟩, h.inv.good _ hsm⟩
  | wipe ss hss =>
    cases ss with
    | nil => cases hpr
    | cons s' ss =>
      simp only [flushProg] at hpr
      injection hpr with e1 e2 e3
      subst e1 e2
      exact ⟨trivial, h.inv.good _ (hss _ (by simp))⟩
  | done n a b ha hb => cases hpr

theorem pool_step (hr : IsRing H name servers r) (hne : servers ≠ []) (hd : DistinctNames name servers)
    (hp : ∀ k, r.pick H k = .ok (p k)) (or : Orders S) (hok : ∀ j, IterOrder (or.keys j)) (hos : ∀ j, IterOrder (or.servers j))
    (name0 : Bytes) (jobs : List Spec.Step) (hjobs : ∀ st ∈ jobs, GoodStep st)
    {tr : List (Ev (Nat × Op))} {a a' : Moment S} {y : Pool.Sys S} {z : Solo S} {as bs : List (Res Out)} {x : Doings (Nat × Op)}
    (hrel : PoolRel tr a y) (hsim : PoolSim servers p name r y z as bs)
    (hcas : ∀ s ∈ servers, (y.world s).nextCas + 1 < 2 ^ 63) (hcasT : z.store.nextCas + 1 < 2 ^ 63)
    (hs : MomentStep (fun s => textCall (name s)) (fun m : Nat × Op => poolProg H name r (or.keys m.1) (or.servers m.1) m.2) a x a')
    (hf : Spec.Wired.FollowsJobs jobs (tr ++ visible [x])) :
    ∃ y' z' as' bs', ShareStep p name0 jobs z x z' ∧ PoolSim servers p name r y' z' as' bs' ∧ PoolRel (tr ++ visible [x]) a' y'
      ∧ (∀ s ∈ servers, (y'.world s).nextCas ≤ (y.world s).nextCas + runs [x]) ∧ z'.store.nextCas ≤ z.store.nextCas + runs [x] := by
  have same : ∀ {e : Ev (Nat × Op)} {i : Nat}, (∀ m, e ≠ .start i m) → (∀ r, e ≠ .finish i r) → Spec.Wired.told (tr ++ [e]) i = Spec.Wired.told tr i := by
    intro e i h1 h2
    rw [told_append]
    have : Spec.Wired.told [e] i = none := by
      cases e with
      | finish j r =>
        show (if j = i then some r else none) = none
        rw [if_neg (fun e => h2 r (by rw [e]))]
      | tick d => rfl
      | start j m => rfl
    rw [this]; simp
  have toldStart : ∀ {i j : Nat} {m : Nat × Op}, Spec.Wired.told (tr ++ [.start i m]) j = Spec.Wired.told tr j := by
    intro i j m
    rw [told_append]
    show (Spec.Wired.told tr j).or none = _
    simp
  cases hs with
  | tick d =>
    obtain ⟨z', as', bs', h1, h2, -, -⟩ := hsim.move hr hne hd hp or hok hos name0 jobs hjobs hcas hcasT (.tick d)
    cases h1 with
    | tick =>
      refine ⟨_, _, as', bs', .tick z d, h2, ⟨?_, fun i => ?_⟩, fun s _ => Nat.le_refl _, Nat.le_refl _⟩
      · show World.tick y.world d = World.tick a.world d
        rw [hrel.world]
      · have e : Spec.Wired.told (tr ++ visible [.ev (.tick d)]) i = Spec.Wired.told tr i := same (by simp) (by simp)
        rw [e]
        rcases hrel.each i with h | ⟨pr, h3, h4, h5, m, h6⟩ | ⟨res, h3, h4, h5, m, h6⟩
        · exact .inl h
        · exact .inr (.inl ⟨pr, h3, h4, h5, m, List.mem_append_left _ h6⟩)
        · exact .inr (.inr ⟨res, h3, h4, h5, m, List.mem_append_left _ h6⟩)
  | start i m h1 =>
    obtain ⟨f1, f2, st, f3, f4, f5⟩ := hf tr i m [] rfl
    obtain ⟨mi, o⟩ := m
    obtain rfl : mi = i := f1
    have hy : y.calls mi = none ∧ Spec.Wired.told tr mi = none := by
      rcases hrel.each mi with ⟨-, h2, h3⟩ | ⟨pr, h2, _⟩ | ⟨res, -, -, -, m', h2⟩
      · exact ⟨h2, h3⟩
      · rw [h1] at h2; cases h2
      · exact absurd h2 (f2 m')
    have hz : z.calls mi = none := by
      rcases hsim.calls mi with ⟨-, h2⟩ | ⟨pr, x, h2, -⟩
      · exact h2
      · rw [hy.1] at h2; cases h2
    obtain ⟨z', as', bs', g1, g2, -, -⟩ := hsim.move hr hne hd hp or hok hos name0 jobs hjobs hcas hcasT (.run mi)
    have hstep : y.step H name r or jobs (.run mi) = ⟨y.world, fun x => if x = mi then some (poolProg H name r (or.keys mi) (or.servers mi) o) else y.calls x⟩ := by
      simp only [Pool.Sys.step, hy.1, f3]
      rw [← hrel.results jobs.length st f5, ← f4]
    rw [hstep] at g2
    cases g1 with
    | begin e1 e2 e3 =>
      refine ⟨_, _, as', bs', .start z mi o _ _ e1 e2 e3, g2, ⟨hrel.world, fun j => ?_⟩, fun s _ => Nat.le_refl _, Nat.le_refl _⟩
      rw [show Spec.Wired.told (tr ++ visible [.ev (.start mi (mi, o))]) j = Spec.Wired.told tr j from toldStart]
      show ((if j = mi then _ else a.prog j) = none ∧ (if j = mi then _ else y.calls j) = none ∧ _)
        ∨ (∃ pr, (if j = mi then _ else a.prog j) = some pr ∧ (if j = mi then _ else y.calls j) = some pr ∧ _)
        ∨ ∃ res, (if j = mi then _ else a.prog j) = none ∧ (if j = mi then _ else y.calls j) = some (.ret res) ∧ _
      by_cases hj : j = mi
      · subst hj
        rw [if_pos rfl, if_pos rfl]
        exact .inr (.inl ⟨_, rfl, rfl, hy.2, (j, o), List.mem_append_right _ (by simp [visible])⟩)
      · simp only [if_neg hj]
        rcases hrel.each j with h | ⟨pr, h3, h4, h5, m, h6⟩ | ⟨res, h3, h4, h5, m, h6⟩
        · exact .inl h
        · exact .inr (.inl ⟨pr, h3, h4, h5, m, List.mem_append_left _ h6⟩)
        · exact .inr (.inr ⟨res, h3, h4, h5, m, List.mem_append_left _ h6⟩)
    | act e1 _ => rw [hz] at e1; cases e1
    | none e1 =>
      rcases e1 with e1 | ⟨_, _, e1, -⟩
      · rw [f3] at e1; cases e1
      · rw [hz] at e1; cases e1
  | finish i res h1 =>
    obtain ⟨hy, hto, m, hm⟩ : y.calls i = some (.ret res) ∧ Spec.Wired.told tr i = none ∧ ∃ m, Ev.start i m ∈ tr := by
      rcases hrel.each i with ⟨h2, -⟩ | ⟨pr, h2, h3, h4, h5⟩ | ⟨_, h2, -⟩
      · rw [h1] at h2; cases h2
      · rw [h1] at h2; cases h2; exact ⟨h3, h4, h5⟩
      · rw [h1] at h2; cases h2
    have hans : ∃ x b, z.calls i = some x ∧ x.result = some b ∧ Alike res b := by
      rcases hsim.calls i with ⟨h2, -⟩ | ⟨pr, x, h2, h3, h4⟩
      · rw [hy] at h2; cases h2
      · rw [hy] at h2
        cases h2
        rcases h4.results with ⟨r1, -⟩ | ⟨n, a, b, r1, r2, r3, r4⟩ | ⟨a, b, r1, r2, r3, -⟩
        · cases r1
        · cases r1; exact ⟨x, b, h3, r2, hsim.inv.alike.2 n res b r3 r4⟩
        · cases r1; exact ⟨x, b, h3, r2, r3⟩
    obtain ⟨x, b, e1, e2, e3⟩ := hans
    refine ⟨y, z, as, bs, .finish z i x res b e1 e2 e3, hsim, ⟨hrel.world, fun j => ?_⟩, fun s _ => Nat.le_refl _, Nat.le_refl _⟩
    show ((if j = i then none else a.prog j) = none ∧ _) ∨ (∃ pr, (if j = i then none else a.prog j) = some pr ∧ _)
        ∨ ∃ res, (if j = i then none else a.prog j) = none ∧ _
    by_cases hj : j = i
    · subst hj
      rw [if_pos rfl]
      refine .inr (.inr ⟨res, rfl, hy, ?_, m, List.mem_append_left _ hm⟩)
      rw [told_append, hto]
      show (none : Option (Res Out)).or (if j = j then some res else none) = some res
      rw [if_pos rfl]; rfl
    · rw [if_neg hj, show Spec.Wired.told (tr ++ visible [.ev (.finish i res)]) j = Spec.Wired.told tr j from
        same (by simp) (fun r e => by injection e with e; exact hj e.symm)]
      rcases hrel.each j with h | ⟨pr, h3, h4, h5, m, h6⟩ | ⟨res, h3, h4, h5, m, h6⟩
      · exact .inl h
      · exact .inr (.inl ⟨pr, h3, h4, h5, m, List.mem_append_left _ h6⟩)
      · exact .inr (.inr ⟨res, h3, h4, h5, m, List.mem_append_left _ h6⟩)
  | run i s op k h1 =>
    obtain ⟨hy, hto, m, hm⟩ : y.calls i = some (.call s op k) ∧ Spec.Wired.told tr i = none ∧ ∃ m, Ev.start i m ∈ tr := by
      rcases hrel.each i with ⟨h2, -⟩ | ⟨pr, h2, h3, h4, h5⟩ | ⟨_, h2, -⟩
      · rw [h1] at h2; cases h2
      · rw [h1] at h2; cases h2; exact ⟨h3, h4, h5⟩
      · rw [h1] at h2; cases h2
    have hz : ∃ x, z.calls i = some x ∧ x.result = none := by
      rcases hsim.calls i with ⟨h2, -⟩ | ⟨pr, x, h2, h3, h4⟩
      · rw [hy] at h2; cases h2
      · rw [hy] at h2
        cases h2
        rcases h4.results with ⟨-, r1⟩ | ⟨n, a, b, r1, -⟩ | ⟨a, b, r1, -⟩
        · exact ⟨x, h3, r1⟩
        · cases r1
        · cases r1
    obtain ⟨x, hz, hzr⟩ := hz
    obtain ⟨z', as', bs', g1, g2, g3, g4⟩ := hsim.move hr hne hd hp or hok hos name0 jobs hjobs hcas hcasT (.run i)
    have hstep : y.step H name r or jobs (.run i) = ⟨(textStep name s op y.world).2,
        fun x => if x = i then some (k (textStep name s op y.world).1) else y.calls x⟩ := by
      simp only [Pool.Sys.step, hy]
    cases g1 with
    | begin e1 _ _ => rw [hz] at e1; cases e1
    | none e1 =>
      rcases e1 with e1 | ⟨x', _, e1, e2⟩
      · exfalso
        obtain ⟨pre, post, rfl⟩ := List.append_of_mem hm
        obtain ⟨-, -, st, f3, -⟩ := hf pre i m (post ++ visible [.run i]) (by simp)
        rw [f3] at e1; cases e1
      · rw [hz] at e1; cases e1; rw [hzr] at e2; cases e2
    | act e1 e2 =>
      refine ⟨_, _, as', bs', .run z i _ _ _ e1 e2, g2, ⟨?_, fun j => ?_⟩, g3, g4⟩
      · rw [hstep]
        show (textStep name s op y.world).2 = (callOn _ s op some a.world).2
        rw [hrel.world]; rfl
      · rw [hstep, show tr ++ visible [(Doings.run i : Doings (Nat × Op))] = tr by simp [visible]]
        show ((if j = i then _ else a.prog j) = none ∧ (if j = i then _ else y.calls j) = none ∧ _)
          ∨ (∃ pr, (if j = i then _ else a.prog j) = some pr ∧ (if j = i then _ else y.calls j) = some pr ∧ _)
          ∨ ∃ res, (if j = i then _ else a.prog j) = none ∧ (if j = i then _ else y.calls j) = some (.ret res) ∧ _
        by_cases hj : j = i
        · subst hj
          rw [if_pos rfl, if_pos rfl, hrel.world]
          exact .inr (.inl ⟨_, rfl, rfl, hto, m, hm⟩)
        · simp only [if_neg hj]
          exact hrel.each j

/-! ### Whole runs -/

theorem follows_prefix {jobs : List Spec.Step} {tr tr' : List (Ev (Nat × Op))} (h : Spec.Wired.FollowsJobs jobs tr) (hp : tr' <+: tr) :
    Spec.Wired.FollowsJobs jobs tr' := by
  obtain ⟨more, rfl⟩ := hp
  intro pre i m post e
  exact h pre i m (post ++ more) (by rw [e]; simp)

theorem follows_more {jobs : List Spec.Step} {tr more : List (Ev (Nat × Op))} (h : Spec.Wired.FollowsJobs jobs tr)
    (hm : Spec.Wired.starts more = []) : Spec.Wired.FollowsJobs jobs (tr ++ more) := by
  intro pre i m post e
  rcases List.append_eq_append_iff.1 e with ⟨a', e1, e2⟩ | ⟨c', e1, e2⟩
  · exfalso
    have : (i, m) ∈ Spec.Wired.starts more := mem_starts.2 (by rw [e2]; simp)
    rw [hm] at this
    cases this
  · cases c' with
    | nil =>
      exfalso
      have : (i, m) ∈ Spec.Wired.starts more := mem_starts.2 (by rw [List.nil_append] at e2; rw [← e2]; simp)
      rw [hm] at this
      cases this
    | cons y c' =>
      injection e2 with e2 e3
      subst e2
      exact h pre i m c' e1

theorem follows_upto {jobs : List Spec.Step} {tr tr' : List (Ev (Nat × Op))} (h : Spec.Wired.FollowsJobs jobs tr) (hp : Spec.Wired.Upto tr tr') :
    Spec.Wired.FollowsJobs jobs tr' := by
  rcases hp with hp | ⟨more, rfl, hm⟩
  · exact follows_prefix h hp
  · exact follows_more h hm

theorem pool_run (hr : IsRing H name servers r) (hne : servers ≠ []) (hd : DistinctNames name servers)
    (hp : ∀ k, r.pick H k = .ok (p k)) (or : Orders S) (hok : ∀ j, IterOrder (or.keys j)) (hos : ∀ j, IterOrder (or.servers j))
    (name0 : Bytes) (jobs : List Spec.Step) (hjobs : ∀ st ∈ jobs, GoodStep st) {w : World S} {t : Store}
    (hgood : ∀ s ∈ servers, GoodStore (w s) ∧ PosCas (w s)) (hgoodT : GoodStore t ∧ PosCas t)
    (hnow : ∀ s ∈ servers, (w s).now = t.now) (hsame : ∀ k, SameEntry ((w (p k)).data k) (t.data k))
    {l : List (Doings (Nat × Op))} {a : Moment S}
    (hl : MomentRun (fun s => textCall (name s)) (fun m : Nat × Op => poolProg H name r (or.keys m.1) (or.servers m.1) m.2)
      ⟨w, fun _ => none⟩ l a)
    (hf : Spec.Wired.FollowsJobs jobs (visible l))
    (hcas : ∀ s ∈ servers, (w s).nextCas + runs l + 1 < 2 ^ 63) (hcasT : t.nextCas + runs l + 1 < 2 ^ 63) :
    ∃ y z as bs, ShareRun p name0 jobs ⟨t, fun _ => none⟩ l z ∧ PoolSim servers p name r y z as bs ∧ PoolRel (visible l) a y
      ∧ (∀ s ∈ servers, (y.world s).nextCas ≤ (w s).nextCas + runs l) ∧ z.store.nextCas ≤ t.nextCas + runs l := by
  induction hl with
  | nil =>
    have hmem : ∀ k, p k ∈ servers := by
      intro k
      obtain ⟨s, hs, hpk⟩ := C05_member hr hne k
      rw [hp] at hpk
      cases hpk
      exact hs
    exact ⟨Pool.Sys.start w, _, [], [], .nil, ⟨⟨hmem, fun s hs => (hgood s hs).1, hgoodT.1, fun s hs => (hgood s hs).2, hgoodT.2,
      fun k => ⟨hnow _ (hmem k), hsame k⟩, ⟨rfl, by simp⟩, by simp⟩, fun j => Or.inl ⟨rfl, rfl⟩⟩,
      ⟨rfl, fun i => .inl ⟨rfl, rfl, rfl⟩⟩, fun s _ => Nat.le_refl _, Nat.le_refl _⟩
  | @snoc l x a a' _ hs ih =>
    rw [visible_append] at hf
    rw [runs_append] at hcas hcasT ⊢
    obtain ⟨y, z, as, bs, h1, h2, h3, h4, h5⟩ := ih (follows_prefix hf (List.prefix_append _ _)) (fun s hs => by have := hcas s hs; omega) (by omega)
    obtain ⟨y', z', as', bs', g1, g2, g3, g4, g5⟩ := pool_step hr hne hd hp or hok hos name0 jobs hjobs h3 h2
      (fun s hs => by have := hcas s hs; have := h4 s hs; omega) (by omega) hs hf
    refine ⟨y', z', as', bs', .snoc h1 g1, g2, by rw [visible_append]; exact g3, fun s hs => ?_, by omega⟩
    have := h4 s hs
    have := g4 s hs
    omega

theorem PoolRel.proper {tr : List (Ev (Nat × Op))} {a : Moment S} {y : Pool.Sys S} {z : Solo S} {as bs : List (Res Out)}
    (h : PoolRel tr a y) (hsim : PoolSim servers p name r y z as bs) : NextProper (fun s => textCall (name s)) a := by
  intro i s op k hi
  have hy : y.calls i = some (.call s op k) := by
    rcases h.each i with ⟨h2, -⟩ | ⟨pr, h2, h3, -⟩ | ⟨_, h2, -⟩
    · rw [hi] at h2; cases h2
    · rw [hi] at h2; cases h2; exact h3
    · rw [hi] at h2; cases h2
  obtain ⟨g1, g2⟩ := hsim.good hy
  rw [h.world] at g2
  exact text_proper _ g1 g2

/-! ### How many calls there are -/

theorem length_le_of_nodup {α : Type} [DecidableEq α] : ∀ {l m : List α}, l.Nodup → (∀ x ∈ l, x ∈ m) → l.length ≤ m.length
  | [], _, _, _ => Nat.zero_le _
  | x :: l, m, hn, h => by
    have hx := h x (by simp)
    have := length_le_of_nodup (l := l) (m := m.erase x) (List.nodup_cons.1 hn).2 fun y hy =>
      (List.mem_erase_of_ne (fun e => (List.nodup_cons.1 hn).1 (by rw [← e]; exact hy))).2 (h y (by simp [hy]))
    have hl := List.length_erase_of_mem hx
    have := List.length_pos_of_mem hx
    simp only [List.length_cons]
    omega

omit [DecidableEq S] in
theorem short_le {n m : Nat} {pr : Prog S} (h : n ≤ m) (hs : Short n pr) : Short m pr := by
  induction h with
  | refl => exact hs
  | step _ ih => exact short_more ih

theorem short_multi (name : S → Bytes) (r : Ring S) : ∀ (es : List (Bytes × List Bytes)) (acc : List Item), Short es.length (multiProg name r es acc)
  | [], _ => trivial
  | (n, ks) :: es, acc => by
    unfold multiProg
    cases r.find name n with
    | none => exact short_ret _ _
    | some s => exact fun x => short_then (n := es.length) (fun _ => short_multi name r es _) x

theorem short_flush : ∀ (ss : List S), Short ss.length (flushProg ss)
  | [] => trivial
  | s :: ss => by
    unfold flushProg
    exact fun x => short_then (n := ss.length) (fun _ => short_flush ss) x

theorem short_pool (hr : IsRing H name servers r) (hne : servers ≠ []) (hd : DistinctNames name servers)
    {order : List (Bytes × List Bytes) → List (Bytes × List Bytes)} {orderS : List S → List S} (hok : IterOrder order) (hos : IterOrder orderS)
    (o : Op) : Short servers.length (poolProg H name r order orderS o) := by
  have hpos := List.length_pos_iff.2 hne
  have one : ∀ {k : Bytes} {o : Op} {α : Type} {out : Out → Option α} {f : α → Prog S}, (∀ a, ∃ x, f a = .ret x) →
      Short servers.length (onPick (r.pick H k) fun s => .call s o (andThen out f)) := by
    intro k o α out f hf
    refine short_le hpos (short_pick fun s => fun x => short_then (n := 0) (fun a => ?_) x)
    obtain ⟨x, hx⟩ := hf a
    rw [hx]; exact short_ret _ _
  cases o with
  | get k => exact one fun a => ⟨_, rfl⟩
  | set i => exact one fun a => ⟨_, rfl⟩
  | add i => exact one fun a => ⟨_, rfl⟩
  | replace i => exact one fun a => ⟨_, rfl⟩
  | delete k => exact one fun a => ⟨_, rfl⟩
  | increment k d e => exact one fun a => ⟨_, rfl⟩
  | decrement k d e => exact one fun a => ⟨_, rfl⟩
  | touch k e => exact one fun a => ⟨_, rfl⟩
  | flush =>
    obtain ⟨hnd, hl⟩ := order_values (E := textEnv H name) (servers := servers) (r := r) hr hos
    exact short_le (length_le_of_nodup hnd fun s hs => (registered_mem hd s).1 ((hl s).1 hs)) (short_flush _)
  | getMulti ks =>
    obtain ⟨m, calls, hm, hc, hn, hmem⟩ := routing_calls (textEnv H name) (servers := servers) (r := r) hr hne hd order hok ks
    show Short _ (multiOn name r order (keyMap (textEnv H name) r ks []))
    rw [hm]
    refine short_le ?_ (short_multi name r (order m) [])
    have e : (order m).length = (calls.map Prod.fst).length := by
      have := congrArg List.length hc
      simpa using this
    rw [e]
    refine length_le_of_nodup hn fun s hs => ?_
    obtain ⟨c, hc', rfl⟩ := List.mem_map.1 hs
    obtain ⟨h1, h2⟩ := (hmem c.1 c.2).1 hc'
    obtain ⟨k, hk⟩ := List.exists_mem_of_ne_nil _ h2
    rw [h1, List.mem_filter, decide_eq_true_eq] at hk
    obtain ⟨s, hs, hpk⟩ := C05_member hr hne k
    rw [show r.pick H k = _ from hk.2] at hpk
    cases hpk
    exact hs

/-! ### The theorems -/

/-- The situation: `SinglePool`s over the same servers in any number of processes.  Call number `i` is made by goroutine
`i` and is the one that `jobs` says. -/
structure PoolUse (U : Setup S (Nat × Op)) (H : Hashes) (name : S → Bytes) (servers : List S) (r : Ring S) (p : Bytes → S) (or : Orders S)
    (jobs : List Spec.Step) (w : World S) (t : Store) (tr : List (Ev (Nat × Op))) (x : State S) : Prop where
  conns : U.call = fun s => textCall (name s)
  methods : U.method = fun m => poolProg H name r (or.keys m.1) (or.servers m.1) m.2
  ring : IsRing H name servers r
  nonempty : servers ≠ []
  names : DistinctNames name servers
  pick : ∀ k, r.pick H k = .ok (p k)
  orders : ∀ j, IterOrder (or.keys j) ∧ IterOrder (or.servers j)
  run : Run U (State.init w) tr x
  up : Spec.Wired.Up x
  follows : Spec.Wired.FollowsJobs jobs tr
  good : ∀ st ∈ jobs, GoodStep st
  stores : ∀ s ∈ servers, GoodStore (w s) ∧ PosCas (w s)
  store : GoodStore t ∧ PosCas t
  now : ∀ s ∈ servers, (w s).now = t.now
  same : ∀ k, SameEntry ((w (p k)).data k) (t.data k)
  cas : ∀ s ∈ servers, (w s).nextCas + servers.length * (Spec.Wired.starts tr).length + 1 < 2 ^ 63
  casT : t.nextCas + servers.length * (Spec.Wired.starts tr).length + 1 < 2 ^ 63

section
variable {U : Setup S (Nat × Op)} {or : Orders S} {jobs : List Spec.Step} {w : World S} {t : Store} {tr : List (Ev (Nat × Op))} {x : State S}

theorem PoolUse.clients (c : PoolUse U H name servers r p or jobs w t tr x) : Clients U := .inl ⟨name, c.conns⟩

theorem PoolUse.few (c : PoolUse U H name servers r p or jobs w t tr x) {l : List (Doings (Nat × Op))} {a : Moment S}
    (hl : MomentRun U.call U.method ⟨w, fun _ => none⟩ l a) (hv : Spec.Wired.Upto tr (visible l)) :
    runs l ≤ servers.length * (Spec.Wired.starts tr).length := by
  obtain ⟨n, hn⟩ := exists_above (Spec.Wired.starts (visible l))
  obtain ⟨f, -, h⟩ := runs_bound hl (b := servers.length) (fun _ m _ => by
    rw [c.methods]
    exact short_pool c.ring c.nonempty c.names (c.orders m.1).1 (c.orders m.1).2 m.2) hn
  have := Nat.mul_le_mul_left servers.length hv.starts.length_le
  omega

theorem PoolUse.shared (c : PoolUse U H name servers r p or jobs w t tr x) (name0 : Bytes) {l : List (Doings (Nat × Op))} {a : Moment S}
    (hl : MomentRun U.call U.method ⟨w, fun _ => none⟩ l a) (hv : Spec.Wired.Upto tr (visible l)) :
    ∃ y z as bs, ShareRun p name0 jobs ⟨t, fun _ => none⟩ l z ∧ PoolSim servers p name r y z as bs ∧ PoolRel (visible l) a y := by
  have hfew := c.few hl hv
  rw [c.conns, c.methods] at hl
  obtain ⟨y, z, as, bs, h1, h2, h3, -, -⟩ := pool_run c.ring c.nonempty c.names c.pick or (fun j => (c.orders j).1) (fun j => (c.orders j).2) name0 jobs
    c.good c.stores c.store c.now c.same hl (follows_upto c.follows hv) (fun s hs => by have := c.cas s hs; omega) (by have := c.casT; omega)
  exact ⟨y, z, as, bs, h1, h2, h3⟩

theorem PoolUse.proper (c : PoolUse U H name servers r p or jobs w t tr x) :
    ∀ l a, MomentRun U.call U.method ⟨w, fun _ => none⟩ l a → Spec.Wired.Upto tr (visible l) → NextProper U.call a := by
  intro l a hl hv
  obtain ⟨y, z, as, bs, -, h2, h3⟩ := c.shared [] hl hv
  rw [c.conns]
  exact h3.proper h2

theorem PoolUse.later {tr' : List (Ev (Nat × Op))} {y : State S} (c : PoolUse U H name servers r p or jobs w t tr x)
    (h1 : Run U x tr' y) (h2 : Spec.Wired.starts tr' = []) (h3 : Spec.Wired.Up y) :
    PoolUse U H name servers r p or jobs w t (tr ++ tr') y := by
  have e : Spec.Wired.starts (tr ++ tr') = Spec.Wired.starts tr := by rw [starts_append, h2, List.append_nil]
  exact ⟨c.conns, c.methods, c.ring, c.nonempty, c.names, c.pick, c.orders, c.run.trans h1, h3, follows_more c.follows h2, c.good, c.stores,
    c.store, c.now, c.same, by rw [e]; exact c.cas, by rw [e]; exact c.casT⟩

/-- **C84**: the same for the methods of `SinglePool`: what all processes see is what one memcached used by all of
them could have shown them, in which a call on one key is carried out at one moment between its call and its return,
a `GetMulti` in parts (the keys of one server at one moment), and a `Flush` in parts (server by server). -/
theorem C84_pool (c : PoolUse U H name servers r p or jobs w t tr x) (name0 : Bytes) :
    ∃ l z, ShareRun p name0 jobs ⟨t, fun _ => none⟩ l z ∧ visible l = tr
      ∧ ∀ k, SameEntry ((x.world (p k)).data k) (z.store.data k) := by
  obtain ⟨l, a, h1, h2, -, h4⟩ := C84_refines c.clients c.run c.up fun l a hl hv _ => c.proper l a hl (.inl hv)
  obtain ⟨y, z, as, bs, g1, g2, g3⟩ := c.shared name0 h1 (.inl (by rw [h2]; exact List.prefix_refl _))
  exact ⟨l, z, g1, h2, fun k => by rw [← h4.world, ← g3.world]; exact (g2.inv.agree k).entry⟩

/-- **C84**: they all return: without new calls only finitely many things happen, ... -/
theorem C84_pool_finite (c : PoolUse U H name servers r p or jobs w t tr x) :
    ¬ ∃ f : Nat → State S, f 0 = x ∧ ∀ n, Spec.Wired.Works U (f n) (f (n + 1)) :=
  C84_finite c.clients c.run c.up c.proper

/-- **C84**: ... and something can happen until they have. -/
theorem C84_pool_no_deadlock (c : PoolUse U H name servers r p or jobs w t tr x) (hb : ¬ Spec.Wired.AllBack x) :
    ∃ y, Spec.Wired.Works U x y :=
  C84_no_deadlock c.clients c.run c.up c.proper hb

/-- **C84**: so every run can be continued to one in which all have. -/
theorem C84_pool_run_on (c : PoolUse U H name servers r p or jobs w t tr x) :
    ∃ tr' y, Run U x tr' y ∧ Spec.Wired.Up y ∧ Spec.Wired.starts tr' = [] ∧ Spec.Wired.AllBack y := by
  obtain ⟨tr', y, h1, h2, h3, h4⟩ := C84_run_on c.clients c.run c.up c.proper
  exact ⟨tr', y, h1, h3, h2, h4⟩
end

end Wired
end Verif
