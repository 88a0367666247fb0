import Verif.Props.JointRouter
/-!
C83, the calls of one client and the requests the router has handled for it.
-/

namespace Verif
namespace Joint
open Srv Srv.Accept Spec Props

variable {T : Type} [DecidableEq T] {σ : Type}

/-! ### Calls, answers, results -/

/-- The first of these requests are those of the calls, and their answers mean these results. -/
inductive Told : List Use → List (Request × Res (List Response)) → List (Call Out × Res Out) → Prop where
  | nil (calls) : Told [] calls []
  | cons {u us req rs calls y good} (gives : Gives (protoOf u.kind) (askOf u) [rs] y) (rest : Told us calls good) :
      Told (u :: us) ((req, .ok rs) :: calls) ((u.call, y.map Said.toOut) :: good)

/-- A client's calls so far: `good` have returned with results, the others that have returned are `bad`; the handler has
been called for `us`, the calls `good`, and then for `vs`. -/
structure Plan (R : Sched.Params T) (st : Sched.State T) (calls : List (Request × Res (List Response)))
    (good bad : List (Call Out × Res Out)) (us vs : List Use) : Prop where
  log : st.log = good ++ bad
  told : Told us calls good
  reqs : calls.map (·.1) = (us ++ vs).map useReq
  uses : ∀ u ∈ us ++ vs, u.Good ∧ u.kind = R.kind ∧ R.calls u.call
  quiet : ∀ e ∈ good, ¬ Sched.Fails e.2
  fails : ∀ x r more, bad = (x, r) :: more → Sched.Fails r ∧ Sched.Trouble R st
  final : ¬ (R.timeout = true ∧ R.late = true) → ∀ e ∈ bad, Sched.Fails e.2
  held : bad = [] → vs = [] ∨ ∃ t u, vs = [u] ∧ st.lock = some t ∧ (st.pc t).op = some u.call

theorem told_calls {us : List Use} {calls : List (Request × Res (List Response))} {good : List (Call Out × Res Out)}
    (h : Told us calls good) : good.map (·.1) = us.map (·.call) := by
  induction h with
  | nil => rfl
  | cons _ _ ih => simp [ih]

theorem told_length {us : List Use} {calls : List (Request × Res (List Response))} {good : List (Call Out × Res Out)}
    (h : Told us calls good) : good.length = us.length := by
  have := congrArg List.length (told_calls h)
  simpa using this

theorem issues_uses {k : Life.Kind} : ∀ is : List Issue, (∀ i ∈ is, RouterAsk k i.ask) →
    ∃ us : List Use, (∀ u ∈ us, u.Good ∧ u.kind = k) ∧ is.map (Issue.use (protoOf k)) = us.map (·.call)
      ∧ is.map (·.ask) = us.map askOf := by
  intro is
  induction is with
  | nil => intro _; exact ⟨[], by simp, rfl, rfl⟩
  | cons i is ih =>
    intro hi
    obtain ⟨us, h1, h2, h3⟩ := ih fun j hj => hi j (by simp [hj])
    obtain ⟨u, e1, e2, e3⟩ := hi i (by simp)
    obtain ⟨f1, f2, f3⟩ := withHdr_keeps i.h1 u
    refine ⟨withHdr i.h1 u :: us, ?_, ?_, ?_⟩
    · intro x hx
      rcases List.mem_cons.1 hx with rfl | hx
      · exact ⟨f1 e1, f2.trans e2⟩
      · exact h1 x hx
    · simp only [List.map_cons]
      rw [h2, issue_use e2 e3]
    · simp only [List.map_cons]
      rw [h3, f3, e3]

theorem asked_uses {k : Life.Kind} : ∀ (is : List Issue) (us : List Use), (∀ u ∈ us, u.Good ∧ u.kind = k) →
    is.map (·.ask) = us.map askOf → (is.flatMap fun i => asked (protoOf k) i.ask) = us.map useReq := by
  intro is
  induction is with
  | nil =>
    intro us _ he
    cases us with
    | nil => rfl
    | cons u us => cases he
  | cons i is ih =>
    intro us hu he
    cases us with
    | nil => cases he
    | cons u us =>
      obtain ⟨h1, h2⟩ := List.cons.inj he
      have h1 : i.ask = askOf u := h1
      obtain ⟨e1, e2⟩ := hu u (by simp)
      rw [List.flatMap_cons, ih us (fun x hx => hu x (by simp [hx])) h2, h1, ← e2, asked_use e1]
      rfl

theorem heard_told {k : Life.Kind} : ∀ {is : List Issue} {rss : List (List Response)} {xs : List (Res Said)}, Heard (protoOf k) is rss xs →
    ∀ {us : List Use} {good : List (Call Out × Res Out)} {calls : List (Request × Res (List Response))},
    (∀ u ∈ us, u.Good ∧ u.kind = k) → is.map (·.ask) = us.map askOf → good.map (·.1) = us.map (·.call) →
    good.map (·.2) = xs.map (Res.map Said.toOut) → (∃ rest, calls.map (·.2) = rss.map .ok ++ rest) → Told us calls good := by
  intro is rss xs hh
  induction hh with
  | nil =>
    intro us good calls _ h2 h3 _ _
    cases us with
    | cons u us => cases h2
    | nil =>
      cases good with
      | cons g good => cases h3
      | nil => exact .nil _
  | @cons i is rs more x xs fit len gives rest ih =>
    intro us good calls h1 h2 h3 h4 h5
    cases us with
    | nil => cases h2
    | cons u us =>
      cases good with
      | nil => cases h3
      | cons g good =>
        obtain ⟨a, b⟩ := g
        obtain ⟨e1, e2⟩ := List.cons.inj h2
        obtain ⟨e3, e4⟩ := List.cons.inj h3
        obtain ⟨e5, e6⟩ := List.cons.inj h4
        have e1 : i.ask = askOf u := e1
        have e3 : a = u.call := e3
        have e5 : b = x.map Said.toOut := e5
        obtain ⟨g1, g2⟩ := h1 u (by simp)
        rw [e1, ← g2, asked_use g1] at len
        obtain ⟨r0, rfl⟩ : ∃ r0, rs = [r0] := by
          cases rs with
          | nil => cases len
          | cons r0 l => cases l with
            | nil => exact ⟨r0, rfl⟩
            | cons _ _ => simp at len
        obtain ⟨tail, ht⟩ := h5
        cases calls with
        | nil => simp at ht
        | cons cl calls =>
          obtain ⟨req, ans⟩ := cl
          have ht : ans :: calls.map (·.2) = .ok r0 :: (more.map .ok ++ tail) := by simpa using ht
          obtain ⟨t1, t2⟩ := List.cons.inj ht
          subst t1 e3 e5
          refine .cons ?_ (ih (fun y hy => h1 y (by simp [hy])) e2 e4 e6 ⟨tail, t2⟩)
          rw [← e1, g2]
          exact gives

variable {P : Nat → Sched.Params T} {h : Handler σ} {I : σ → Prop} {s0 : σ}

/-- The calls among all those in use. -/
theorem uses_handled (hC : RouterClients P) {q : State T (Atomic σ)} (hl : Later P (atomically h) (init (.init s0)) q) (c : Nat) :
    ∃ ws : List Use, (∀ u ∈ ws, u.Good ∧ u.kind = (P c).kind ∧ (P c).calls u.call)
      ∧ (callsFrom c q.server.state.log).map (·.1) = ws.map useReq := by
  have hf : ∀ c a, RouterAsk (P c).kind a → Spec.Fit (protoOf (P c).kind) a := fun c a ha => router_fit ha
  rcases calls_requests hl c with ⟨_, h1⟩ | ⟨k, hk, h1⟩
  · exact ⟨[], by simp, by rw [h1]; rfl⟩
  · obtain ⟨cs, g1, g2⟩ := sent_prefix (own_reach hl c)
    obtain ⟨is, hA, he⟩ := Served.issues_of cs fun x hx => (router_clients hC).calls c x (g1 x hx)
    obtain ⟨us, f1, f2, f3⟩ := issues_uses is hA
    obtain ⟨more, hm⟩ := ((net_ok hl c k hk).1).trans g2
    have hr := reads_issues is (fun i hi => hf c _ (hA i hi)) none (.inl rfl)
    rw [← he, ← hm] at hr
    obtain ⟨todo, e, _⟩ := legible_run (server_run hl) (protoOf (P c).kind).wire k hk more _ hr
    rw [asked_uses is us f1 f3] at e
    have hp : (callsFrom c q.server.state.log).map (·.1) <+: us.map useReq := by
      rw [e]
      exact h1.trans (List.prefix_append _ _)
    refine ⟨us.take (callsFrom c q.server.state.log).length, fun u hu => ?_, ?_⟩
    · have hu := List.take_subset _ _ hu
      refine ⟨(f1 u hu).1, (f1 u hu).2, g1 _ ?_⟩
      rw [he, f2]
      exact List.mem_map.2 ⟨u, hu, rfl⟩
    · rw [List.map_take, List.prefix_iff_eq_take.1 hp, List.length_map]

/-- The requests of the calls `good`, in a sequential run. -/
theorem told_good (hC : RouterClients P) (hw : ∀ c, Courteous h (protoOf (P c).kind) I (RouterAsk (P c).kind)) (hI : I s0)
    {q : State T (Atomic σ)} (hl : Later P (atomically h) (init (.init s0)) q) (c : Nat) {good : List (Call Out × Res Out)}
    (hk : ∀ e ∈ good, (P c).calls e.1) (hg : Sched.Sequential (own P c (callsFrom c q.server.state.log)).resp good)
    (hio : ∀ e ∈ good, e.2 ≠ .err .io) :
    ∃ is : List Issue, ∃ us : List Use, good.map (·.1) = is.map (Issue.use (protoOf (P c).kind)) ∧ (∀ i ∈ is, RouterAsk (P c).kind i.ask)
      ∧ is.map (·.ask) = us.map askOf ∧ (∀ u ∈ us, u.Good ∧ u.kind = (P c).kind ∧ (P c).calls u.call)
      ∧ us.map useReq <+: (callsFrom c q.server.state.log).map (·.1) ∧ Told us (callsFrom c q.server.state.log) good
      ∧ ∀ e ∈ good, ¬ Sched.Fails e.2 := by
  obtain ⟨is, hA, he⟩ := Served.issues_of (good.map (·.1)) (fun x hx => by
    obtain ⟨e, he, rfl⟩ := List.mem_map.1 hx
    exact (router_clients hC).calls c _ (hk e he))
  obtain ⟨us, f1, f2, f3⟩ := issues_uses is hA
  have hg : good.map (·.2) = oneByOne (fun i => (serve script none (callsFrom c q.server.state.log) i).out) [] [] (good.map (·.1)) := hg
  rw [he] at hg
  obtain ⟨mine, rest, rss, xs, out', e1, e2, e3, e4, e5, e6⟩ := turns is (fun i hi => router_fit (hA i hi))
    ((handled_well (router_clients hC) hw hI hl).2 c) (Served.has_init script (protoOf (P c).kind).wire _) (fun hx => by
      rw [← hg] at hx
      obtain ⟨e, he, hx⟩ := List.mem_map.1 hx
      exact hio e he hx)
  have hm : good.map (·.1) = us.map (·.call) := he.trans f2
  refine ⟨is, us, he, hA, f3, fun u hu => ⟨(f1 u hu).1, (f1 u hu).2, ?_⟩, ?_, ?_, ?_⟩
  · have : u.call ∈ good.map (·.1) := by rw [hm]; exact List.mem_map.2 ⟨u, hu, rfl⟩
    obtain ⟨e, he, h2⟩ := List.mem_map.1 this
    rw [← h2]
    exact hk e he
  · rw [e1, List.map_append, e2, asked_uses is us f1 f3]
    exact List.prefix_append _ _
  · rw [e1]
    refine heard_told e4 f1 f3 hm (by rw [hg, e5]) ⟨rest.map (·.2), ?_⟩
    rw [List.map_append, e3]
  · intro e he
    have hm : e.2 ∈ good.map (·.2) := List.mem_map.2 ⟨e, he, rfl⟩
    rw [hg, e5] at hm
    obtain ⟨x, hx, hx'⟩ := List.mem_map.1 hm
    rw [← hx']
    exact heard_fails e4 x hx

theorem plan_free (hC : RouterClients P) (hw : ∀ c, Courteous h (protoOf (P c).kind) I (RouterAsk (P c).kind)) (hI : I s0)
    {q : State T (Atomic σ)} (hl : Later P (atomically h) (init (.init s0)) q) (c : Nat) :
    ∃ good bad us vs, Plan (P c) (q.users c) (callsFrom c q.server.state.log) good bad us vs := by
  have hr := own_reach hl c
  have hk := Sched.log_known hr
  have hf : ∀ c a, RouterAsk (P c).kind a → Spec.Fit (protoOf (P c).kind) a := fun c a ha => router_fit ha
  obtain ⟨ws, w1, w2⟩ := uses_handled hC hl c
  have split : ∀ us : List Use, (∀ u ∈ us, u.Good ∧ u.kind = (P c).kind ∧ (P c).calls u.call) →
      us.map useReq <+: (callsFrom c q.server.state.log).map (·.1) →
      (callsFrom c q.server.state.log).map (·.1) = (us ++ ws.drop us.length).map useReq ∧
      ∀ u ∈ us ++ ws.drop us.length, u.Good ∧ u.kind = (P c).kind ∧ (P c).calls u.call := by
    intro us hu hp
    constructor
    · rw [w2] at hp
      rw [w2, List.map_append, List.map_drop]
      have := List.prefix_iff_eq_append.1 hp
      rw [List.length_map] at this
      exact this.symm
    · intro u hm
      rcases List.mem_append.1 hm with hm | hm
      · exact hu u hm
      · exact w1 u (List.mem_of_mem_drop hm)
  rcases own_fair (router_clients hC) hw hI hl c with ⟨hfit, _, hn⟩ | ⟨good, x, r, bad, h1, h2, h3, h4, h5, h6⟩
  · obtain ⟨is, us, e1, e2, e3, e4, e5, e6, e7⟩ := told_good hC hw hI hl c hk hfit.log hn
    have ha := asked_uses is us (fun u hu => ⟨(e4 u hu).1, (e4 u hu).2.1⟩) e3
    rcases handled_so_far (router_clients hC) hf hl c hfit (fun i hi => router_fit (e2 i hi)) e1 with hp | ⟨t, i, todo, g1, g2, g3, hp⟩
    · rw [ha] at hp
      refine ⟨_, [], us, [], by rw [List.append_nil], e6, ?_, ?_, e7, by simp, by simp, fun _ => .inl rfl⟩
      · rw [List.append_nil]
        exact hp.eq_of_length (Nat.le_antisymm hp.length_le e5.length_le)
      · rw [List.append_nil]; exact e4
    · have hop : ((q.users c).pc t).op = some (i.use (protoOf (P c).kind)) := by
        revert g3
        cases (q.users c).pc t <;> intro g3 <;> cases g3 <;> rfl
      obtain ⟨vs, v1, v2, v3⟩ := issues_uses [i] (fun j hj => by rw [List.mem_singleton.1 hj]; exact g2)
      obtain ⟨v, rfl⟩ : ∃ v, vs = [v] := by
        cases vs with
        | nil => cases v3
        | cons v l => cases l with
          | nil => exact ⟨v, rfl⟩
          | cons _ _ => simp at v3
      have hv2 : i.use (protoOf (P c).kind) = v.call := by simpa using v2
      have hv4 : asked (protoOf (P c).kind) i.ask = [useReq v] := by
        have := asked_uses [i] [v] v1 v3
        simpa using this
      rw [hv2] at hop
      rw [ha, hv4] at hp
      have hvk : (P c).calls v.call := Sched.known hr t _ hop
      by_cases hlen : (callsFrom c q.server.state.log).length = us.length
      · refine ⟨_, [], us, [], by rw [List.append_nil], e6, ?_, ?_, e7, by simp, by simp, fun _ => .inl rfl⟩
        · rw [List.append_nil]
          exact (e5.eq_of_length (by simp [hlen])).symm
        · rw [List.append_nil]; exact e4
      · refine ⟨_, [], us, [v], by rw [List.append_nil], e6, ?_, ?_, e7, by simp, by simp, fun _ => .inr ⟨t, v, rfl, g1, hop⟩⟩
        · rw [List.map_append]
          refine hp.eq_of_length ?_
          have l1 := hp.length_le
          have l2 := e5.length_le
          simp only [List.length_map, List.length_append, List.length_cons, List.length_nil] at l1 l2 ⊢
          omega
        · intro u hu
          rcases List.mem_append.1 hu with hu | hu
          · exact e4 u hu
          · rw [List.mem_singleton.1 hu]
            exact ⟨(v1 v (by simp)).1, (v1 v (by simp)).2, hvk⟩
  · obtain ⟨is, us, e1, e2, e3, e4, e5, e6, e7⟩ := told_good hC hw hI hl c (fun e he => hk e (by rw [h1]; exact List.mem_append_left _ he)) h2 h5
    obtain ⟨s1, s2⟩ := split us e4 e5
    refine ⟨good, (x, r) :: bad, us, _, h1, e6, s1, s2, e7, ?_, fun hn e he => ?_, fun hb => by cases hb⟩
    · intro x' r' more hm
      cases hm
      exact ⟨h3, h4⟩
    · rcases List.mem_cons.1 he with rfl | he
      · exact h3
      · rcases (h6 hn).1 e he with h | h
        · exact h
        · exfalso
          obtain ⟨w, hw⟩ := wires_ok (router_clients hC) hf c e.1 (hk e (by rw [h1]; simp [he]))
          revert h
          cases e.2 with
          | ok _ => exact id
          | err _ => intro h; have : e.1.wire = _ := h; rw [hw] at this; cases this
          | panic => intro h; have : e.1.wire = _ := h; rw [hw] at this; cases this

/-! ### Two moments -/

theorem gives_same {u v : Use} (hk : v.kind = u.kind) (hr : useReq v = useReq u) {rs : List Response} {y : Res Said}
    (hg : Gives (protoOf u.kind) (askOf u) [rs] y) : Gives (protoOf v.kind) (askOf v) [rs] y := by
  have hop : (useReq v).opcode = (useReq u).opcode := by rw [hr]
  have hkey : (useReq v).key = (useReq u).key := by rw [hr]
  have d1 : ¬ opSet = opGet := by decide
  have d2 : ¬ opGet = opSet := by decide
  cases u with
  | textSet i =>
    cases v with
    | textSet j =>
      cases hg with
      | done => exact .done _ (.set j) trivial ‹_› _ _ ‹_›
      | num => exact False.elim ‹Spec.Counting (Op.set i)›
    | _ => cases hk
  | metaSet i =>
    cases v with
    | metaSet j =>
      cases hg with
      | done => exact .done _ (.set j) trivial ‹_› _ _ ‹_›
      | num => exact False.elim ‹Spec.Counting (Op.set i)›
    | metaGet k => exact absurd hop d2
    | _ => cases hk
  | binSet h i =>
    cases v with
    | binSet h' j =>
      cases hg with
      | done => exact absurd rfl ‹_ ≠ Proto.binary›
      | binDone => exact .binDone (.set j) trivial _ _ ‹_›
      | num => exact False.elim ‹Spec.Counting (Op.set i)›
      | binNum => exact False.elim ‹Spec.Counting (Op.set i)›
    | binGet h' k => exact absurd hop d2
    | _ => cases hk
  | metaGet k =>
    cases v with
    | metaGet k' =>
      have : k' = k := hkey
      subst this
      exact hg
    | metaSet j => exact absurd hop d1
    | _ => cases hk
  | binGet h k =>
    cases v with
    | binGet h' k' =>
      have : k' = k := hkey
      subst this
      exact hg
    | binSet h' j => exact absurd hop d1
    | _ => cases hk

theorem told_change : ∀ {us : List Use} {calls : List (Request × Res (List Response))} {good : List (Call Out × Res Out)},
    Told us calls good → ∀ (us2 : List Use), us2.map (·.call) = us.map (·.call) → us2.map useReq = us.map useReq →
    us2.map Use.kind = us.map Use.kind → Told us2 calls good := by
  intro us calls good hh
  induction hh with
  | nil =>
    intro us2 h1 _ _
    cases us2 with
    | nil => exact .nil _
    | cons _ _ => cases h1
  | @cons u us req rs calls y good gives rest ih =>
    intro us2 h1 h4 h5
    cases us2 with
    | nil => cases h1
    | cons v us2 =>
      obtain ⟨a1, a2⟩ := List.cons.inj h1
      obtain ⟨b1, b2⟩ := List.cons.inj h4
      obtain ⟨c1, c2⟩ := List.cons.inj h5
      have a1 : v.call = u.call := a1
      rw [← a1]
      exact .cons (gives_same c1 b1 gives) (ih us2 a2 b2 c2)

/-- Two ways to divide a list before its first failure. -/
theorem first_failure {good bad good' bad' : List (Call Out × Res Out)} (he : good ++ bad = good' ++ bad')
    (h1 : ∀ e ∈ good', ¬ Sched.Fails e.2) (h2 : ∀ x r more, bad = (x, r) :: more → Sched.Fails r) : good' <+: good := by
  rcases List.append_eq_append_iff.1 he with ⟨m, e1, e2⟩ | ⟨m, e1, e2⟩
  · cases m with
    | nil => rw [e1, List.append_nil]; exact List.prefix_refl _
    | cons x m =>
      obtain ⟨a, b⟩ := x
      exact absurd (h2 a b _ e2) (h1 (a, b) (by rw [e1]; simp))
  · exact ⟨m, e1.symm⟩

/-- What has been decided at one moment can be kept at a later one. -/
theorem plan_extends (hC : RouterClients P) (hw : ∀ c, Courteous h (protoOf (P c).kind) I (RouterAsk (P c).kind)) (hI : I s0)
    {q q' : State T (Atomic σ)} (hl : Later P (atomically h) (init (.init s0)) q) (hl' : Later P (atomically h) q q') (c : Nat)
    {good bad : List (Call Out × Res Out)} {us vs : List Use}
    (hp : Plan (P c) (q.users c) (callsFrom c q.server.state.log) good bad us vs) :
    ∃ good' bad' us' vs' more, Plan (P c) (q'.users c) (callsFrom c q'.server.state.log) good' bad' us' vs' ∧ us' ++ vs' = us ++ vs ++ more := by
  obtain ⟨good', bad', us', vs', hp'⟩ := plan_free hC hw hI (hl.trans hl') c
  obtain ⟨late, hlate⟩ := C56_real_time (server_later hl')
  obtain ⟨new, hnew⟩ := users_log hl' c
  have hcat : callsFrom c q'.server.state.log = callsFrom c q.server.state.log ++ callsFrom c late := by
    rw [← hlate, callsFrom_append]
  have hreq : (us ++ vs).map useReq ++ (callsFrom c late).map (·.1) = (us' ++ vs').map useReq := by
    rw [← hp'.reqs, hcat, ← hp.reqs, ← List.map_append]
  obtain ⟨k, hk⟩ : ∃ k, k = (us ++ vs).length := ⟨_, rfl⟩
  have hle : k ≤ (us' ++ vs').length := by
    have := congrArg List.length hreq
    simp only [List.length_append, List.length_map] at this hk ⊢
    omega
  have htake : (us ++ vs).map useReq = ((us' ++ vs').take k).map useReq := by
    rw [List.map_take, ← hreq, List.take_append_of_le_length (by simp [hk]), List.take_of_length_le (by simp [hk])]
  obtain ⟨ws, hws⟩ : ∃ ws, ws = us ++ vs ++ (us' ++ vs').drop k := ⟨_, rfl⟩
  have hwr : ws.map useReq = (us' ++ vs').map useReq := by
    rw [hws, List.map_append, htake, ← List.map_append, List.take_append_drop]
  have hwl : ws.length = (us' ++ vs').length := by
    have := congrArg List.length hwr
    simpa using this
  have hwu : ∀ u ∈ ws, u.Good ∧ u.kind = (P c).kind ∧ (P c).calls u.call := by
    intro u hu
    rw [hws] at hu
    rcases List.mem_append.1 hu with hu | hu
    · exact hp.uses u hu
    · exact hp'.uses u (List.mem_of_mem_drop hu)
  have hlogs : good ++ (bad ++ new) = good' ++ bad' := by
    rw [← List.append_assoc, ← hp.log, hnew, hp'.log]
  have hpre : good <+: good' := first_failure hlogs.symm hp.quiet fun x r more he => (hp'.fails x r more he).1
  have hgl : good.length = us.length := told_length hp.told
  have hgl' : good'.length = us'.length := told_length hp'.told
  -- the calls
  have hus : us.map (·.call) = good.map (·.1) := (told_calls hp.told).symm
  have hus' : us'.map (·.call) = good'.map (·.1) := (told_calls hp'.told).symm
  have hgle := hpre.length_le
  have hbad : bad ≠ [] → good' = good := by
    intro hb
    have : good' <+: good := first_failure hlogs hp'.quiet fun x r more he => by
      cases bad with
      | nil => exact absurd rfl hb
      | cons z l =>
        have he : z :: (l ++ new) = (x, r) :: more := he
        cases he
        exact (hp.fails x r l rfl).1
    exact this.eq_of_length (Nat.le_antisymm this.length_le hgle)
  have hdrop : ∀ n, us.length ≤ n → n ≤ us'.length → ((us' ++ vs').drop n).take (us'.length - n) = us'.drop n := by
    intro n _ hn
    rw [List.drop_append_of_le_length hn]
    rw [List.take_append_of_le_length (by simp), List.take_of_length_le (by simp)]
  have hcalls : (ws.take us'.length).map (·.call) = us'.map (·.call) := by
    rw [hus']
    by_cases hlen : good'.length = good.length
    · have e : good = good' := hpre.eq_of_length hlen.symm
      rw [hws, List.append_assoc, List.take_append_of_le_length (by omega), List.take_of_length_le (by omega), hus, e]
    · have hb : bad = [] := Classical.byContradiction fun hb => hlen (by rw [hbad hb])
      rcases hp.held hb with hv | ⟨t, u, hv, ht, hop⟩
      · rw [hv, List.append_nil] at hws hk
        rw [hws, hk, List.take_append, List.take_of_length_le (by omega), hdrop _ (Nat.le_refl _) (by omega), List.map_append, hus,
          List.map_drop, hus', ← hgl, ← List.map_drop, ← List.map_append]
        congr 1
        exact (List.prefix_iff_eq_append.1 hpre)
      · have hk1 : k = us.length + 1 := by rw [hk, hv]; simp
        obtain ⟨m, hm⟩ := hpre
        cases m with
        | nil => rw [List.append_nil] at hm; exact absurd (by rw [hm]) hlen
        | cons y m =>
          have hy : y.1 = u.call := by
            rcases C81_next hl hl' ht hop with ⟨_, _, g⟩ | ⟨r, more, g⟩
            · have := congrArg List.length g
              rw [hp'.log, hp.log, hb, ← hm] at this
              simp at this
            · rw [hp'.log, hp.log, hb, List.append_nil, ← hm, List.append_assoc, List.cons_append] at g
              rw [(List.cons.inj (List.append_cancel_left g)).1]
          have hl1 : us.length + 1 ≤ us'.length := by
            rw [← hgl', ← hgl, ← hm]; simp
          rw [hws, hk1, hv, List.take_append, List.take_of_length_le (by simp; omega)]
          have : us'.length - (us ++ [u]).length = us'.length - (us.length + 1) := by simp
          rw [this, hdrop _ (by omega) hl1, List.map_append, List.map_append, hus, List.map_drop, hus', ← hgl, ← hm]
          simp only [List.map_append, List.map_cons, hy, List.map_nil]
          have hlen2 : good.length + 1 = (good.map (·.1) ++ [u.call]).length := by simp
          rw [hlen2, show good.map (·.1) ++ u.call :: m.map (·.1) = (good.map (·.1) ++ [u.call]) ++ m.map (·.1) by simp, List.drop_left]
  have hlast : bad' = [] → vs' = [] ∨ ∃ t u, ws.drop us'.length = [u] ∧ (q'.users c).lock = some t ∧ ((q'.users c).pc t).op = some u.call := by
    intro hb'
    rcases hp'.held hb' with hv | ⟨t', u', hv', ht', hop'⟩
    · exact .inl hv
    · right
      by_cases hku : k ≤ us'.length
      · refine ⟨t', u', ?_, ht', hop'⟩
        rw [hws, List.drop_append, List.drop_eq_nil_of_le (by omega), List.nil_append, List.drop_drop, ← hk, Nat.add_sub_cancel' hku, List.drop_left, hv']
      · have hb : bad = [] := Classical.byContradiction fun hb => by
          have e := hbad hb
          rw [hb', e, List.append_nil] at hlogs
          have := congrArg List.length hlogs
          simp at this
          exact hb this.1
        have hk2 : k = us'.length + 1 := by
          rw [hv'] at hle
          simp at hle
          omega
        rcases hp.held hb with hv | ⟨t, u, hv, ht, hop⟩
        · rw [hv, List.append_nil] at hk
          omega
        · have hk1 : k = us.length + 1 := by rw [hk, hv]; simp
          have e : good = good' := hpre.eq_of_length (by omega)
          have elog : (q'.users c).log = (q.users c).log := by rw [hp'.log, hp.log, hb, hb', e]
          rcases C81_next hl hl' ht hop with ⟨g1, g2, _⟩ | ⟨r, more, g⟩
          · refine ⟨t, u, ?_, g1, g2⟩
            have : us'.length = us.length := by omega
            rw [hws, hv, hv', hk2, List.drop_eq_nil_of_le (as := us' ++ [u']) (by simp), List.append_nil, this, List.drop_left]
          · rw [elog] at g
            have := congrArg List.length g
            simp at this
  have hul : us'.length ≤ ws.length := by rw [hwl]; simp
  have hkinds : (ws.take us'.length).map Use.kind = us'.map Use.kind := by
    have e1 : (ws.take us'.length).map Use.kind = List.replicate us'.length (P c).kind := by
      rw [List.eq_replicate_iff]
      refine ⟨by simp [hul], fun b hb => ?_⟩
      obtain ⟨u, hu, rfl⟩ := List.mem_map.1 hb
      exact (hwu u (List.take_subset _ _ hu)).2.1
    have e2 : us'.map Use.kind = List.replicate us'.length (P c).kind := by
      rw [List.eq_replicate_iff]
      refine ⟨by simp, fun b hb => ?_⟩
      obtain ⟨u, hu, rfl⟩ := List.mem_map.1 hb
      exact (hp'.uses u (List.mem_append_left _ hu)).2.1
    rw [e1, e2]
  have hreqs : (ws.take us'.length).map useReq = us'.map useReq := by
    rw [List.map_take, hwr, List.map_append, List.take_append_of_le_length (by simp), List.take_of_length_le (by simp)]
  refine ⟨good', bad', ws.take us'.length, ws.drop us'.length, (us' ++ vs').drop k, ⟨hp'.log, told_change hp'.told _ hcalls hreqs hkinds, ?_, ?_, hp'.quiet, hp'.fails, hp'.final, ?_⟩, ?_⟩
  · rw [List.take_append_drop, hwr]; exact hp'.reqs
  · rw [List.take_append_drop]; exact hwu
  · intro hb
    rcases hlast hb with h | h
    · left
      rw [h, List.append_nil] at hwl
      exact List.drop_eq_nil_of_le (by omega)
    · exact .inr h
  · rw [List.take_append_drop, hws]

end Joint
end Verif
