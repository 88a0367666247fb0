import Verif.Props.JointLinear
/-!
C81, continued: calls under way, and the order in time.
-/

namespace Verif
namespace Joint
open Srv Spec Props
open Accept (Conn Concurrent Run Atomic atomically)

variable {T : Type} [DecidableEq T] {σ : Type}
variable {P : Nat → Sched.Params T} {p : Nat → Proto} {A : Nat → Ask → Prop} {h : Handler σ} {I : σ → Prop} {s0 : σ}

/-! ### Calls and their requests -/

theorem asked_unique {p : Proto} {is js : List Issue} (hi : ∀ i ∈ is, Spec.Fit p i.ask) (hj : ∀ j ∈ js, Spec.Fit p j.ask)
    (he : is.map (Issue.use p) = js.map (Issue.use p)) : (is.flatMap fun i => asked p i.ask) = js.flatMap fun j => asked p j.ask := by
  have h1 := reads_issues is hi none (.inl rfl)
  rw [he] at h1
  exact readsAs_unique h1 (reads_issues js hj none (.inl rfl))

theorem heard_fit {p : Proto} {is : List Issue} {rss : List (List Response)} {xs : List (Res Said)} (hh : Heard p is rss xs) :
    ∀ i ∈ is, Spec.Fit p i.ask := by
  induction hh with
  | nil => intro i hi; cases hi
  | cons fit _ _ _ ih =>
    intro i hi
    rcases List.mem_cons.1 hi with rfl | hi
    · exact fit
    · exact ih i hi

theorem heard_split {p : Proto} : ∀ {is js : List Issue} {rss : List (List Response)} {xs : List (Res Said)},
    Heard p (is ++ js) rss xs → ∃ r1 r2 x1 x2, rss = r1 ++ r2 ∧ xs = x1 ++ x2 ∧ x1.length = is.length ∧ Heard p is r1 x1 ∧ Heard p js r2 x2
      ∧ r1.length = (is.flatMap fun i => asked p i.ask).length := by
  intro is
  induction is with
  | nil => intro js rss xs hh; exact ⟨[], rss, [], xs, rfl, rfl, rfl, .nil, hh, rfl⟩
  | cons i is ih =>
    intro js rss xs hh
    rw [List.cons_append] at hh
    cases hh with
    | @cons _ _ r0 more x xs fit len gives rest =>
      obtain ⟨r1, r2, x1, x2, rfl, rfl, h1, h2, h3, h4⟩ := ih rest
      exact ⟨r0 ++ r1, r2, x :: x1, x2, by simp, rfl, by simp [h1], .cons fit len gives h2, h3, by simp [len, h4]⟩

theorem took_split {p : Proto} {l1 l2 : List (Call Out × Res Out)} {mine : List (Request × Res (List Response))}
    (ht : Resulted p (l1 ++ l2) mine) : ∃ m1 m2, mine = m1 ++ m2 ∧ Resulted p l1 m1 ∧ Resulted p l2 m2 := by
  obtain ⟨is, rss, xs, h1, h2, h3, h4, h5⟩ := ht
  rw [List.map_append] at h1 h2
  obtain ⟨js, ks, rfl, hj, hk⟩ := List.map_eq_append_iff.1 h1.symm
  obtain ⟨r1, r2, x1, x2, rfl, rfl, e1, e2, e3, e4⟩ := heard_split h5
  rw [List.flatMap_append] at h3
  obtain ⟨m1, m2, rfl, hm1, hm2⟩ := List.map_eq_append_iff.1 h3
  rw [List.map_append, List.map_append] at h4
  rw [List.map_append] at h2
  have hlen : m1.length = r1.length := by
    have := congrArg List.length hm1
    rw [List.length_map] at this
    omega
  obtain ⟨a1, a2⟩ := List.append_inj h4 (by simp [hlen])
  have hlen2 : l1.length = js.length := by
    have := congrArg List.length hj
    simpa using this.symm
  obtain ⟨b1, b2⟩ := List.append_inj h2 (by simp [hlen2, e1])
  exact ⟨m1, m2, rfl, ⟨js, r1, x1, hj.symm, b1, hm1, a1, e2⟩, ⟨ks, r2, x2, hk.symm, b2, hm2, a2, e3⟩⟩

theorem gives_fails {p : Proto} {a : Ask} {rss : List (List Response)} {x : Res Said} (hg : Gives p a rss x) :
    ¬ Sched.Fails (x.map Said.toOut) := by
  cases hg <;> (intro e; rcases e with e | e <;> cases e)

theorem heard_fails {p : Proto} {is : List Issue} {rss : List (List Response)} {xs : List (Res Said)} (hh : Heard p is rss xs) :
    ∀ x ∈ xs, ¬ Sched.Fails (x.map Said.toOut) := by
  induction hh with
  | nil => intro i hi; cases hi
  | cons _ _ gives _ ih =>
    intro i hi
    rcases List.mem_cons.1 hi with rfl | hi
    · exact gives_fails gives
    · exact ih i hi

theorem took_fails {p : Proto} {l : List (Call Out × Res Out)} {mine : List (Request × Res (List Response))}
    (ht : Resulted p l mine) : ∀ e ∈ l, ¬ Sched.Fails e.2 := by
  obtain ⟨is, rss, xs, h1, h2, h3, h4, h5⟩ := ht
  intro e he
  have hm : e.2 ∈ l.map (·.2) := List.mem_map.2 ⟨e, he, rfl⟩
  rw [h2] at hm
  obtain ⟨x, hx, hx'⟩ := List.mem_map.1 hm
  rw [← hx']
  exact heard_fails h5 x hx

/-! ### The call under way -/

/-- The requests of the calls that have returned, and of the one that is on the connection. -/
theorem handled_so_far (hC : Clients P p A) (hf : ∀ c a, A c a → Spec.Fit (p c) a) {q : State T (Atomic σ)}
    (hl : Later P (atomically h) (init (.init s0)) q) (c : Nat)
    (hfit : Sched.Fit (own P c (callsFrom c q.server.state.log)) (q.users c)) {is : List Issue} (hA : ∀ i ∈ is, Spec.Fit (p c) i.ask)
    (hlog : (q.users c).log.map (·.1) = is.map (Issue.use (p c))) :
    (callsFrom c q.server.state.log).map (·.1) <+: (is.flatMap fun i => asked (p c) i.ask) ∨
    ∃ t, ∃ i : Issue, ∃ todo, (q.users c).lock = some t ∧ A c i.ask ∧ ((q.users c).pc t).talking = some (i.use (p c), todo)
      ∧ (callsFrom c q.server.state.log).map (·.1) <+: (is.flatMap fun i => asked (p c) i.ask) ++ asked (p c) i.ask := by
  have hr := own_reach hl c
  obtain ⟨part, x, h1, _, _, h4, h5⟩ := hfit.data
  have h1 : (q.users c).sent = wiresOf ((q.users c).log.map (·.1)) ++ part := h1
  rw [hlog] at h1
  have go : ∀ js : List Issue, (∀ i ∈ js, Spec.Fit (p c) i.ask) → (q.users c).sent <+: wiresOf (js.map (Issue.use (p c))) →
      (callsFrom c q.server.state.log).map (·.1) <+: js.flatMap fun i => asked (p c) i.ask := by
    intro js hj hp
    rcases calls_requests hl c with ⟨_, h6⟩ | ⟨k, hk, h6⟩
    · rw [h6]; exact List.nil_prefix
    · obtain ⟨more, hm⟩ := ((net_ok hl c k hk).1).trans hp
      have hr := reads_issues js hj none (.inl rfl)
      rw [← hm] at hr
      obtain ⟨todo, e, _⟩ := legible_run (server_run hl) (p c).wire k hk more _ hr
      exact h6.trans ⟨todo, e.symm⟩
  by_cases ht : ∃ t, ((q.users c).pc t).talking ≠ none
  · obtain ⟨t, ht⟩ := ht
    cases hx : ((q.users c).pc t).talking with
    | none => exact absurd hx ht
    | some z =>
      obtain ⟨y, todo⟩ := z
      have hop : ((q.users c).pc t).op = some y := by
        revert hx
        cases (q.users c).pc t <;> intro hx <;> cases hx <;> rfl
      obtain ⟨i, hAi, hy⟩ := hC.calls c y (Sched.known hr t y hop)
      refine .inr ⟨t, i, todo, (Sched.excl hr t).1 (Sched.At.inside_of_talking ht), hAi, by rw [hx, hy], ?_⟩
      have hg := go (is ++ [i]) (by
        intro j hj
        rcases List.mem_append.1 hj with hj | hj
        · exact hA j hj
        · rw [List.mem_singleton.1 hj]; exact hf c _ hAi) (by
        rw [h1, List.map_append, Sched.wiresOf_append]
        refine (List.prefix_append_right_inj _).2 ?_
        have hw := h4 t y todo hx
        have : wiresOf ([i].map (Issue.use (p c))) = part ++ todo := by
          show (match (i.use (p c)).wire with | .ok w => w | _ => []) ++ [] = _
          rw [← hy, hw, List.append_nil]
        rw [this]
        exact List.prefix_append _ _)
      rw [List.flatMap_append] at hg
      simpa using hg
  · have hn : ∀ t, ((q.users c).pc t).talking = none := fun t => Classical.byContradiction fun hc => ht ⟨t, hc⟩
    have hp := h5 hn
    subst hp
    rw [List.append_nil] at h1
    exact .inl (go is hA (by rw [h1]; exact List.prefix_refl _))

theorem took_issues {p : Proto} {log : List (Call Out × Res Out)} {mine : List (Request × Res (List Response))} (ht : Resulted p log mine) :
    ∃ is : List Issue, log.map (·.1) = is.map (Issue.use p) ∧ (∀ i ∈ is, Spec.Fit p i.ask) ∧ mine.map (·.1) = is.flatMap fun i => asked p i.ask := by
  obtain ⟨is, rss, xs, h1, _, h3, _, h5⟩ := ht
  exact ⟨is, h1, heard_fit h5, h3⟩

/-- **C81 (under way).** As long as nothing has happened to a client's connection, every call that has returned has its
result, and the handler has not been called for this client with anything else than their requests, in order, and then
some first requests of the one call that is on the connection. -/
theorem C81_under_way (hC : Clients P p A) (hw : ∀ c, Courteous h (p c) I (A c)) (hI : I s0) {q : State T (Atomic σ)}
    (hl : Later P (atomically h) (init (.init s0)) q) (c : Nat) (hn : ¬ Sched.Trouble (P c) (q.users c)) :
    ∃ mine rest, callsFrom c q.server.state.log = mine ++ rest ∧ Resulted (p c) (q.users c).log mine ∧
      (rest = [] ∨ ∃ t, ∃ i : Issue, ∃ todo, (q.users c).lock = some t ∧ A c i.ask
        ∧ ((q.users c).pc t = .writing (i.use (p c)) todo ∨ (q.users c).pc t = .reading (i.use (p c)))
        ∧ rest.map (·.1) <+: asked (p c) i.ask) := by
  have hr := own_reach hl c
  have hk := Sched.log_known hr
  rcases own_fair hC hw hI hl c with ⟨hf, _, hn⟩ | ⟨_, _, _, _, _, _, _, h4, _⟩
  · obtain ⟨mine, rest, e1, e2, _⟩ := took hC hw hI hl c hk hf.log hn
    refine ⟨mine, rest, e1, e2, ?_⟩
    obtain ⟨is, f1, f2, f3⟩ := took_issues e2
    rcases handled_so_far hC (fits hw hI) hl c hf f2 f1 with hp | ⟨t, i, todo, h1, h2, h3, hp⟩
    · left
      rw [e1, List.map_append, f3] at hp
      have := hp.length_le
      rw [List.length_append] at this
      exact List.length_eq_zero_iff.1 (by rw [List.length_map] at this; omega)
    · right
      rw [e1, List.map_append, f3] at hp
      refine ⟨t, i, todo, h1, h2, ?_, (List.prefix_append_right_inj _).1 hp⟩
      revert h3
      cases (q.users c).pc t <;> intro h3 <;> cases h3
      · exact .inl rfl
      · exact .inr rfl
  · exact absurd h4 hn

/-! ### The order in time -/

theorem Later.trans {H : Concurrent σ} {a b d : State T σ} (h1 : Later P H a b) (h2 : Later P H b d) : Later P H a d := by
  induction h2 with
  | refl => exact h1
  | step _ hs ih => exact .step ih hs

theorem server_later {H : Concurrent σ} {q q' : State T σ} (hl : Later P H q q') : Run H q.server q'.server := by
  induction hl with
  | refl => exact .refl
  | step _ hs ih =>
    cases hs with
    | user c s' h => exact ih
    | server a w' h net => exact .tail _ _ _ ih h

theorem users_log {H : Concurrent σ} {q q' : State T σ} (hl : Later P H q q') (c : Nat) : (q.users c).log <+: (q'.users c).log := by
  induction hl with
  | refl => exact List.prefix_refl _
  | @step v u _ hs ih =>
    cases hs with
    | user d s' h =>
      refine ih.trans ?_
      show _ <+: (if c = d then s' else v.users c).log
      by_cases hd : c = d
      · subst hd; rw [if_pos rfl]; exact (sched_mono h).2.2
      · rw [if_neg hd]; exact List.prefix_refl _
    | server a w' h net => exact ih

/-- The goroutine that holds the lock is the next to return. -/
theorem held_step {R : Sched.Params T} {s s' : Sched.State T} (he : Sched.Excl s) {t : T} (hk : s.lock = some t) {x : Call Out}
    (hx : (s.pc t).op = some x) (hs : Sched.Step R s s') :
    (s'.lock = some t ∧ (s'.pc t).op = some x ∧ s'.log = s.log) ∨ ∃ r, s'.log = s.log ++ [(x, r)] := by
  have inside : ∀ u, (s.pc u).inside = true → u = t := by
    intro u hu
    have := (he u).1 hu
    rw [hk] at this
    exact (Option.some.inj this).symm
  have ret : ∀ (u : T) (y : Call Out) (r : Res Out), (s.pc u).inside = true → (s.pc u).op = some y →
      ∃ r, s.log ++ [(y, r)] = s.log ++ [(x, r)] := by
    intro u y r hi hy
    have := inside u hi
    subst this
    rw [hx] at hy
    cases hy
    exact ⟨r, rfl⟩
  have move : ∀ (u : T) (a : Sched.At), a.op = (s.pc u).op ∨ (s.pc u).op = none → ((s.goto u a).pc t).op = some x := by
    intro u a ha
    rw [Sched.goto_pc]
    by_cases hu : t = u
    · subst hu
      rw [if_pos rfl]
      rcases ha with ha | ha
      · rw [ha]; exact hx
      · rw [ha] at hx; cases hx
    · rw [if_neg hu]; exact hx
  have out : ∀ (u : T) (y : Call Out) (r : Res Out) (s2 : Sched.State T), (s.pc u).inside = true → (s.pc u).op = some y →
      s2.log = s.log ++ [(y, r)] → (s2.lock = some t ∧ (s2.pc t).op = some x ∧ s2.log = s.log) ∨ ∃ r, s2.log = s.log ++ [(x, r)] := by
    intro u y r s2 hi hy h2
    have := inside u hi
    subst this
    rw [hx] at hy
    cases hy
    exact .inr ⟨r, h2⟩
  cases hs with
  | call u c hp hc => exact .inl ⟨hk, move u _ (.inr (by rw [hp]; rfl)), rfl⟩
  | lock u c hp hl => rw [hk] at hl; cases hl
  | refuse u c hp _ _ => exact out u c _ _ (by rw [hp]; rfl) (by rw [hp]; rfl) rfl
  | pass u c hp _ => exact .inl ⟨hk, move u _ (.inl (by rw [hp]; rfl)), rfl⟩
  | writeDeadlineNil u c hp _ _ => exact .inl ⟨hk, hx, rfl⟩
  | writeDeadline u c hp _ _ => exact .inl ⟨hk, move u _ (.inl (by rw [hp]; rfl)), rfl⟩
  | readDeadlineNil u c hp _ => exact .inl ⟨hk, hx, rfl⟩
  | readDeadline u c w hp _ _ => exact .inl ⟨hk, move u _ (.inl (by rw [hp]; rfl)), rfl⟩
  | noDeadline u c w hp _ _ => exact .inl ⟨hk, move u _ (.inl (by rw [hp]; rfl)), rfl⟩
  | unencodable u c e hp hw =>
    exact out u c _ _ (by rcases hp with ⟨hp, _⟩ | ⟨hp, _⟩ <;> rw [hp] <;> rfl) (by rcases hp with ⟨hp, _⟩ | ⟨hp, _⟩ <;> rw [hp] <;> rfl) rfl
  | unencodablePanic u c hp hw =>
    exact out u c _ _ (by rcases hp with ⟨hp, _⟩ | ⟨hp, _⟩ <;> rw [hp] <;> rfl) (by rcases hp with ⟨hp, _⟩ | ⟨hp, _⟩ <;> rw [hp] <;> rfl) rfl
  | write u c z y hp _ _ => exact .inl ⟨hk, move u (.writing c y) (.inl (by rw [hp]; rfl)), rfl⟩
  | writeFails u c z hp _ => exact out u c _ _ (by rw [hp]; rfl) (by rw [hp]; rfl) rfl
  | written u c hp _ => exact .inl ⟨hk, move u _ (.inl (by rw [hp]; rfl)), rfl⟩
  | arrive z y _ _ _ => exact .inl ⟨hk, hx, rfl⟩
  | hangUp => exact .inl ⟨hk, hx, rfl⟩
  | read u c hp _ => exact out u c _ _ (by rw [hp]; rfl) (by rw [hp]; rfl) rfl
  | readFails u c hp _ _ => exact out u c _ _ (by rw [hp]; rfl) (by rw [hp]; rfl) rfl
  | readTimeout u c hp _ _ _ => exact out u c _ _ (by rw [hp]; rfl) (by rw [hp]; rfl) rfl
  | callClose u hp _ => exact .inl ⟨hk, move u _ (.inr (by rw [hp]; rfl)), rfl⟩
  | closeAgain u hp _ _ => exact .inl ⟨hk, move u _ (.inr (by rw [hp]; rfl)), rfl⟩
  | closeGo u hp _ => exact .inl ⟨hk, move u _ (.inr (by rw [hp]; rfl)), rfl⟩
  | closeRawNil u hp _ => exact .inl ⟨hk, hx, rfl⟩
  | closeRaw u hp _ => exact .inl ⟨hk, move u _ (.inr (by rw [hp]; rfl)), rfl⟩
  | clearRaw u hp => exact .inl ⟨hk, move u .closeChan (.inr (by rw [hp]; rfl)), rfl⟩
  | closeChanPanic u hp _ => exact .inl ⟨hk, hx, rfl⟩
  | closeChan u hp _ _ => exact .inl ⟨hk, move u .clearChan (.inr (by rw [hp]; rfl)), rfl⟩
  | clearChan u hp => exact .inl ⟨hk, move u .idle (.inr (by rw [hp]; rfl)), rfl⟩

/-- **C81 (the lock holder is next).** The call of the goroutine that holds a client's mutex is the next one of this
client to return; until then it holds the mutex. -/
theorem C81_next {q q' : State T (Atomic σ)} (hl : Later P (atomically h) (init (.init s0)) q) (hl' : Later P (atomically h) q q')
    {c : Nat} {t : T} (hk : (q.users c).lock = some t) {x : Call Out} (hx : ((q.users c).pc t).op = some x) :
    ((q'.users c).lock = some t ∧ ((q'.users c).pc t).op = some x ∧ (q'.users c).log = (q.users c).log) ∨
      ∃ r more, (q'.users c).log = (q.users c).log ++ (x, r) :: more := by
  have key : ((q'.users c).lock = some t ∧ ((q'.users c).pc t).op = some x ∧ (q'.users c).log = (q.users c).log) ∨
      ∃ r more, (q'.users c).log = (q.users c).log ++ (x, r) :: more := by
    induction hl' with
    | refl => exact .inl ⟨hk, hx, rfl⟩
    | @step v u hv hs ih =>
      cases hs with
      | server a w' h net => exact ih
      | user d s' hs =>
        show ((if c = d then s' else v.users c).lock = some t ∧ ((if c = d then s' else v.users c).pc t).op = some x
          ∧ (if c = d then s' else v.users c).log = (q.users c).log) ∨
          ∃ r more, (if c = d then s' else v.users c).log = (q.users c).log ++ (x, r) :: more
        by_cases hd : c = d
        · subst hd
          rw [if_pos rfl]
          rcases ih with ⟨h1, h2, h3⟩ | ⟨r, more, h1⟩
          · rcases held_step (Sched.excl (own_reach (hl.trans hv) c)) h1 h2 hs with ⟨e1, e2, e3⟩ | ⟨r, e⟩
            · exact .inl ⟨e1, e2, by rw [e3, h3]⟩
            · exact .inr ⟨r, [], by rw [e, h3]⟩
          · obtain ⟨l, hl⟩ := (sched_mono hs).2.2
            exact .inr ⟨r, more ++ l, by rw [← hl, h1]; simp⟩
        · rw [if_neg hd]; exact ih
  exact key

theorem callsFrom_append (c : Nat) (a b : List (Nat × Request × Res (List Response))) :
    callsFrom c (a ++ b) = callsFrom c a ++ callsFrom c b := by
  simp [callsFrom]

/-- **C81 (real time).** The order of the handler's calls respects time, across all clients: take any two moments `q` and
`q'`.  Up to `q'` the handler has been called with `early` before `q` and `late` after it.  Divide the calls of a client
that have returned with results at `q'` into `before`, which contains all calls that had returned at `q` and the one that
held the mutex then, if any, and `after`: all the handler's calls for `after` are among `late`. -/
theorem C81_real_time (hC : Clients P p A) (hw : ∀ c, Courteous h (p c) I (A c)) (hI : I s0) {q q' : State T (Atomic σ)}
    (hl : Later P (atomically h) (init (.init s0)) q) (hl' : Later P (atomically h) q q') :
    ∃ late, q'.server.state.log = q.server.state.log ++ late ∧
      ∀ c, ∃ good bad, (q'.users c).log = good ++ bad
        ∧ (∀ x r more, bad = (x, r) :: more → Sched.Fails r ∧ Sched.Trouble (P c) (q'.users c))
        ∧ ∀ before after, good = before ++ after → (q.users c).log <+: before →
          ((q.users c).lock ≠ none → (q.users c).log ≠ before) →
          ∃ m1 m2 rest, callsFrom c q'.server.state.log = m1 ++ m2 ++ rest ∧ Resulted (p c) before m1 ∧ Resulted (p c) after m2
            ∧ ∃ part, m1 = callsFrom c q.server.state.log ++ part ∧ callsFrom c late = part ++ m2 ++ rest := by
  obtain ⟨late, hlate⟩ := C56_real_time (server_later hl')
  refine ⟨late, hlate.symm, fun c => ?_⟩
  obtain ⟨_, _, hlin⟩ := C81_linear hC hw hI (hl.trans hl')
  obtain ⟨good, bad, mine, rest, h1, h2, h3, h4, _⟩ := hlin c
  refine ⟨good, bad, h1, h4, fun before after hg hp hlock => ?_⟩
  subst hg
  obtain ⟨m1, m2, rfl, ht1, ht2⟩ := took_split h3
  refine ⟨m1, m2, rest, h2, ht1, ht2, ?_⟩
  have key : (callsFrom c q.server.state.log).map (·.1) <+: m1.map (·.1) := by
    obtain ⟨is, f1, f2, f3⟩ := took_issues ht1
    obtain ⟨new, hnew⟩ := hp
    have hquiet : ∀ e ∈ (q.users c).log, ¬ Sched.Fails e.2 := fun e he => took_fails ht1 e (by rw [← hnew]; exact List.mem_append_left _ he)
    rcases own_fair hC hw hI hl c with ⟨hf, _, _⟩ | ⟨good', x, r, bad', g1, _, g3, _⟩
    · rw [← hnew, List.map_append] at f1
      obtain ⟨js, ks, rfl, hj, hk⟩ := List.map_eq_append_iff.1 f1.symm
      rw [List.flatMap_append] at f3
      rcases handled_so_far hC (fits hw hI) hl c hf (fun i hi => f2 i (List.mem_append_left _ hi)) hj.symm with hp | ⟨t, i, todo, e1, e2, e3, hp⟩
      · rw [f3]; exact hp.trans (List.prefix_append _ _)
      · have hop : ((q.users c).pc t).op = some (i.use (p c)) := by
          revert e3
          cases (q.users c).pc t <;> intro e3 <;> cases e3 <;> rfl
        have hne := hlock (by rw [e1]; simp)
        obtain ⟨y, new', hy⟩ : ∃ y new', new = y :: new' := by
          cases new with
          | nil => rw [List.append_nil] at hnew; exact absurd hnew hne
          | cons y l => exact ⟨y, l, rfl⟩
        subst hy
        have hy1 : y.1 = i.use (p c) := by
          rcases C81_next hl hl' e1 hop with ⟨_, _, g⟩ | ⟨r, more, g⟩
          · rw [h1, ← hnew] at g
            have := congrArg List.length g
            simp at this
          · rw [h1, ← hnew] at g
            simp only [List.append_assoc, List.cons_append] at g
            have := (List.cons.inj (List.append_cancel_left g)).1
            rw [this]
        obtain ⟨j, ks', rfl⟩ : ∃ j ks', ks = j :: ks' := by
          cases ks with
          | nil => simp at hk
          | cons j l => exact ⟨j, l, rfl⟩
        have hji : j.use (p c) = i.use (p c) := by
          have := (List.cons.inj hk).1
          exact this.trans hy1
        have hasked : asked (p c) j.ask = asked (p c) i.ask := by
          have := asked_unique (p := p c) (is := [j]) (js := [i]) (by
            intro z hz; rw [List.mem_singleton.1 hz]; exact f2 j (by simp)) (by
            intro z hz; rw [List.mem_singleton.1 hz]; exact fits hw hI c _ e2) (by simp [hji])
          simpa using this
        rw [f3, List.flatMap_cons, hasked, ← List.append_assoc]
        exact hp.trans (List.prefix_append _ _)
    · exact absurd g3 (hquiet (x, r) (by rw [g1]; simp))
  have hcat : callsFrom c q'.server.state.log = callsFrom c q.server.state.log ++ callsFrom c late := by
    rw [← hlate, callsFrom_append]
  have hlen : (callsFrom c q.server.state.log).length ≤ m1.length := by simpa using key.length_le
  rw [hcat, List.append_assoc] at h2
  rcases List.append_eq_append_iff.1 h2 with ⟨part, e1, e2⟩ | ⟨part, e1, e2⟩
  · exact ⟨part, e1, by rw [e2, List.append_assoc]⟩
  · have hs : part = [] := by
      rw [e1, List.length_append] at hlen
      exact List.length_eq_zero_iff.1 (by omega)
    subst hs
    refine ⟨[], ?_, ?_⟩
    · rw [e1]; simp
    · simpa using e2.symm

end Joint
end Verif
