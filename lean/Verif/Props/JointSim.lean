import Verif.Props.JointLinear
import Verif.Props.RouterLinear
import Verif.Props.RouterClients
import Verif.Spec.JointRouter
/-!
C83, the simulation: the whole with a router in it is the whole with an atomic server in it.
-/

namespace Verif
namespace Joint
open Srv Srv.Accept Spec Props

variable {T : Type} [DecidableEq T] {σ τ : Type}

/-! ### Replacing the handler -/

/-- Whatever happens outside the handler happens in the same way with a handler that can follow. -/
theorem replace {H : Concurrent σ} {K : Concurrent τ} {R : σ → τ → Prop}
    (hcall : ∀ s t c req, R s t → R (H.call s c req) (K.call t c req))
    (hret : ∀ s t c x s', R s t → H.ret s c x s' → ∃ t', K.ret t c x t' ∧ R s' t')
    {w u : Accept.World σ} {who : Who} (hs : Accept.Step H w who u) (hne : who ≠ .handler) {t : τ} (hR : R w.state t) :
    ∃ t', Accept.Step K (lift w t) who (lift u t') ∧ R u.state t' := by
  cases hs with
  | accept c up hl new => exact ⟨t, .accept (lift w t) c up hl new, hR⟩
  | acceptFails up hl => exact ⟨t, .acceptFails (lift w t) up hl, hR⟩
  | arrive c k bs up hk he => exact ⟨t, .arrive (lift w t) c k bs up hk he, hR⟩
  | hangup c k up hk he => exact ⟨t, .hangup (lift w t) c k up hk he, hR⟩
  | reset c k up hk ho hb => exact ⟨t, .reset (lift w t) c k up hk ho hb, hR⟩
  | read c k pr rq rest up hk ho hb hrd =>
    exact ⟨K.call t c rq, .read (lift w t) c k pr rq rest up hk ho hb hrd, hcall _ _ _ _ hR⟩
  | bad c k e rest up hk ho hb hrd he => exact ⟨t, .bad (lift w t) c k e rest up hk ho hb hrd he, hR⟩
  | crash c k rest up hk ho hb hrd => exact ⟨t, .crash (lift w t) c k rest up hk ho hb hrd, hR⟩
  | work s up hs => exact absurd rfl hne
  | answer c k pr rq res s b up hk ho hb hs hw =>
    obtain ⟨t', h1, h2⟩ := hret _ _ _ _ _ hR hs
    exact ⟨t', .answer (lift w t) c k pr rq res t' b up hk ho hb h1 hw, h2⟩
  | answerLost c k pr rq res s b n up hk ho hb hs hw =>
    obtain ⟨t', h1, h2⟩ := hret _ _ _ _ _ hR hs
    exact ⟨t', .answerLost (lift w t) c k pr rq res t' b n up hk ho hb h1 hw, h2⟩
  | refuse c k pr rq e s up hk ho hb hs =>
    obtain ⟨t', h1, h2⟩ := hret _ _ _ _ _ hR hs
    exact ⟨t', .refuse (lift w t) c k pr rq e t' up hk ho hb h1, h2⟩
  | unwritable c k pr rq res e s up hk ho hb hs hw =>
    obtain ⟨t', h1, h2⟩ := hret _ _ _ _ _ hR hs
    exact ⟨t', .unwritable (lift w t) c k pr rq res e t' up hk ho hb h1 hw, h2⟩
  | handlerCrash c k pr rq s up hk ho hb hs =>
    obtain ⟨t', h1, h2⟩ := hret _ _ _ _ _ hR hs
    exact ⟨t', .handlerCrash (lift w t) c k pr rq t' up hk ho hb h1, h2⟩
  | writeCrash c k pr rq res s up hk ho hb hs hw =>
    obtain ⟨t', h1, h2⟩ := hret _ _ _ _ _ hR hs
    exact ⟨t', .writeCrash (lift w t) c k pr rq res t' up hk ho hb h1 hw, h2⟩

/-- The whole with another handler state. -/
def swap (q : State T σ) (t : τ) : State T τ := ⟨lift q.server t, q.users⟩

theorem Later.trans' {P : Nat → Sched.Params T} {H : Concurrent σ} {a b c : State T σ} (h1 : Later P H a b) (h2 : Later P H b c) :
    Later P H a c := by
  induction h2 with
  | refl => exact h1
  | step _ hs ih => exact .step ih hs

/-- The network's part. -/
def NetOk (q : State T σ) : Prop := ∀ c k, q.server.conns c = some k →
    k.sent <+: (q.users c).sent ∧ (k.eof = true → (q.users c).isOpen = false)

/-- A trace of the server alone is a run of the whole. -/
theorem traced_later {P : Nat → Sched.Params T} {H : Concurrent σ} {users : Nat → Sched.State T} {v0 v : Accept.World σ}
    {tr : List (Who × View)} (h : Traced H v0 tr v) :
    NetOk ⟨v0, users⟩ → (∀ e ∈ tr, ∀ c k, e.2.conns c = some k →
      k.sent <+: (users c).sent ∧ (k.eof = true → (users c).isOpen = false)) →
    Later P H ⟨v0, users⟩ ⟨v, users⟩ ∧ NetOk ⟨v, users⟩ := by
  induction h with
  | start => intro h0 _; exact ⟨.refl, h0⟩
  | inside tr v u ht hs ih =>
    intro h0 he
    obtain ⟨h1, h2⟩ := ih h0 he
    have hc : u.conns = v.conns := by cases hs; rfl
    have hn : NetOk (⟨u, users⟩ : State T σ) := by
      intro c k hk
      exact h2 c k (hc ▸ hk)
    exact ⟨.step h1 (.server ⟨v, users⟩ _ u hs hn), hn⟩
  | event tr v u a ht hs ha ih =>
    intro h0 he
    obtain ⟨h1, h2⟩ := ih h0 fun e hm => he e (List.mem_append_left _ hm)
    have hn : NetOk (⟨u, users⟩ : State T σ) := fun c k hk => he (a, view u) (by simp) c k hk
    exact ⟨.step h1 (.server ⟨v, users⟩ _ u hs hn), hn⟩

/-! ### Who has asked for what -/

variable {P : Nat → Sched.Params T} {p : Nat → Proto} {A : Nat → Ask → Prop}

/-- The requests the server has read are those of operations in use. -/
theorem requests_any (hC : Clients P p A) (hf : ∀ c a, A c a → Spec.Fit (p c) a) {H : Concurrent σ} {s0 : σ} {q : State T σ}
    (hl : Later P H (init s0) q) {c : Nat} {k : Conn} (hk : q.server.conns c = some k) :
    ∀ req ∈ requests k, ∃ a, A c a ∧ req ∈ asked (p c) a := by
  obtain ⟨l, hr⟩ := reach_any hl c
  obtain ⟨cs, h1, h2⟩ := sent_prefix hr
  obtain ⟨is, h3, rfl⟩ := Served.issues_of cs fun x hx => hC.calls c x (h1 x hx)
  obtain ⟨more, hm⟩ := ((net_ok hl c k hk).1).trans h2
  have hreads := reads_issues is (fun i hi => hf c _ (h3 i hi)) none (.inl rfl)
  rw [← hm] at hreads
  obtain ⟨todo, e, _⟩ := legible_run (server_run hl) (p c).wire k hk more _ hreads
  intro req hreq
  have hmem : req ∈ is.flatMap fun i => asked (p c) i.ask := by rw [e]; exact List.mem_append_left _ hreq
  obtain ⟨i, hi, hreq⟩ := List.mem_flatMap.1 hmem
  exact ⟨i.ask, h3 i hi, hreq⟩

/-! ### Time as a schedule -/

/-- One shelf of values that knows how many seconds pass before each request. -/
def timed : Handler (Shelf × List Nat) := fun s req =>
  ((shelfAnswer (s.1.tick (s.2.headD 0)) req).1, (shelfAnswer (s.1.tick (s.2.headD 0)) req).2, s.2.tail)

/-- The shelf behind a lock as it was when it was last used, and the seconds since. -/
def lagging : Concurrent (Atomic Shelf × Nat) where
  call a c req := (sharedShelf.call a.1 c req, a.2)
  step a a' := (∃ c req, a.1.waiting c = some req ∧ a'.2 = 0 ∧
      a'.1 = { own := (shelfAnswer (a.1.own.tick a.2) req).2
               waiting := fun d => if d = c then none else a.1.waiting d
               ready := fun d => if d = c then some (shelfAnswer (a.1.own.tick a.2) req).1 else a.1.ready d
               log := a.1.log ++ [(c, req, (shelfAnswer (a.1.own.tick a.2) req).1)] })
    ∨ ∃ d, a'.1 = a.1 ∧ a'.2 = a.2 + d
  ret a c x a' := sharedShelf.ret a.1 c x a'.1 ∧ a'.2 = a.2

/-- The shelf now. -/
def now (a : Atomic Shelf × Nat) : Atomic Shelf := { a.1 with own := a.1.own.tick a.2 }

/-- The seconds still to come. -/
def ahead (a : Atomic Shelf) (ds : List Nat) : Atomic (Shelf × List Nat) := ⟨(a.own, ds), a.waiting, a.ready, a.log⟩

theorem lag_work {a : Atomic Shelf × Nat} {b : Atomic Shelf} (h : sharedShelf.step (now a) b) :
    ∃ a', now a' = b ∧ lagging.step a a' := by
  rcases h with ⟨c, req, h1, rfl⟩ | ⟨t, ⟨d, rfl⟩, rfl⟩
  · exact ⟨(_, 0), rfl, .inl ⟨c, req, h1, rfl, rfl⟩⟩
  · refine ⟨(a.1, a.2 + d), ?_, .inr ⟨d, rfl, rfl⟩⟩
    unfold now
    rw [← tick_tick]

theorem lag_step {w u : Accept.World (Atomic Shelf)} {who : Who} (hs : Accept.Step sharedShelf w who u) {a : Atomic Shelf × Nat}
    (ha : now a = w.state) : ∃ a', now a' = u.state ∧ Accept.Step lagging (lift w a) who (lift u a') := by
  by_cases hw : who = .handler
  · subst hw
    cases hs with
    | work s up hs =>
      rw [← ha] at hs
      obtain ⟨a', h1, h2⟩ := lag_work hs
      exact ⟨a', h1, .work (lift w a) a' up h2⟩
  · obtain ⟨a', h1, h2⟩ := replace (K := lagging) (R := fun s a => now a = s) (t := a)
      (fun s t c req h => by subst h; rfl)
      (fun s t c x s' h hr => by
        subst h
        obtain ⟨e1, rfl⟩ := hr
        exact ⟨({ t.1 with ready := fun d => if d = c then none else t.1.ready d }, t.2), ⟨⟨e1, rfl⟩, rfl⟩, rfl⟩) hs hw ha
    exact ⟨a', h2, h1⟩

theorem lag_later {q0 q : State T (Atomic Shelf)} (hl : Later P sharedShelf q0 q) {a0 : Atomic Shelf × Nat} (h0 : now a0 = q0.server.state) :
    ∃ a, now a = q.server.state ∧ Later P lagging (swap q0 a0) (swap q a) := by
  induction hl with
  | refl => exact ⟨a0, h0, .refl⟩
  | step _ hs ih =>
    obtain ⟨a, h1, h2⟩ := ih
    cases hs with
    | user c s' h => exact ⟨a, h1, .step h2 (.user _ c s' h)⟩
    | server who w' h net =>
      obtain ⟨a', h3, h4⟩ := lag_step h h1
      exact ⟨a', h3, .step h2 (.server _ who _ h4 net)⟩

/-- From one moment to a later one. -/
theorem ahead_step {q q' : State T (Atomic Shelf × Nat)} (hs : Step P lagging q q') :
    ∃ ds, ∀ more, Later P (atomically timed) (swap q (ahead q.server.state.1 (ds ++ more))) (swap q' (ahead q'.server.state.1 more)) := by
  cases hs with
  | user c s' h => exact ⟨[], fun more => .step .refl (.user (swap q _) c s' h)⟩
  | server who w' h net =>
    by_cases hw : who = .handler
    · subst hw
      cases h with
      | work s up hs =>
        rcases hs with ⟨c, req, h1, h2, h3⟩ | ⟨d, h1, h2⟩
        · refine ⟨[q.server.state.2], fun more => .step .refl (.server (swap q _) .handler _ (.work (lift q.server _) _ up ⟨c, req, h1, ?_⟩) net)⟩
          show ahead s.1 more = _
          rw [h3]
          rfl
        · refine ⟨[], fun more => ?_⟩
          have : (⟨{ q.server with state := s }, q.users⟩ : State T _).server.state.1 = q.server.state.1 := h1
          rw [this]
          exact .refl
    · refine ⟨[], fun more => ?_⟩
      obtain ⟨t', h1, h2⟩ := replace (K := atomically timed) (R := fun s t => t = ahead s.1 more) (t := ahead q.server.state.1 more)
        (fun s t c req h => by subst h; rfl)
        (fun s t c x s' h hr => by
          subst h
          obtain ⟨⟨e1, e2⟩, e3⟩ := hr
          exact ⟨_, ⟨e1, rfl⟩, by rw [e2]; rfl⟩) h hw rfl
      subst h2
      exact .step .refl (.server (swap q _) who _ h1 net)

theorem ahead_later {q q' : State T (Atomic Shelf × Nat)} (hl : Later P lagging q q') :
    ∃ ds, ∀ more, Later P (atomically timed) (swap q (ahead q.server.state.1 (ds ++ more))) (swap q' (ahead q'.server.state.1 more)) := by
  induction hl with
  | refl => exact ⟨[], fun more => .refl⟩
  | step _ hs ih =>
    obtain ⟨ds, h1⟩ := ih
    obtain ⟨es, h2⟩ := ahead_step hs
    refine ⟨ds ++ es, fun more => ?_⟩
    rw [List.append_assoc]
    exact (h1 _).trans' (h2 more)

end Joint
end Verif
