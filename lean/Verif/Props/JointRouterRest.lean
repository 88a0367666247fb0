import Verif.Props.JointAccounts
import Verif.Props.JointRouterFinite
import Verif.Props.JointUse
/-!
C83, continued: all calls return.
-/

namespace Verif
namespace Joint
open Srv Srv.Accept Spec Props
open Pool (Hashes)
open Cluster (ReplicaPool Prog)
open Proxy (Desk process)

variable {T : Type} [DecidableEq T] {S : Type} [DecidableEq S]
variable {H : Hashes} {name : S → Bytes} {ps qs : List S} {r : ReplicaPool S} {w0 : Pool.World S} {P : Nat → Sched.Params T}

/-- A goroutine inside the handler has not ended. -/
theorem busy_open {σ : Type} {K : Concurrent σ} {w u : Accept.World σ} {who : Who} (hs : Accept.Step K w who u)
    (h : ∀ c k, w.conns c = some k → k.busy ≠ none → k.fin = none) :
    ∀ c k, u.conns c = some k → k.busy ≠ none → k.fin = none := by
  have put : ∀ {v : Accept.World σ} (d : Nat) (k' : Conn), v.conns = (w.put d k').conns → (k'.busy ≠ none → k'.fin = none) →
      ∀ c k, v.conns c = some k → k.busy ≠ none → k.fin = none := by
    intro v d k' hv hk' c k hk
    rw [hv] at hk
    have hk : (if c = d then some k' else w.conns c) = some k := hk
    by_cases hd : c = d
    · rw [if_pos hd] at hk; cases hk; exact hk'
    · rw [if_neg hd] at hk; exact h c k hk
  cases hs with
  | accept c up hl new => exact put c _ rfl fun hb => rfl
  | acceptFails up hl => exact h
  | arrive c k bs up hk he => exact put c _ rfl fun hb => h c k hk hb
  | hangup c k up hk he => exact put c _ rfl fun hb => h c k hk hb
  | reset c k up hk ho hb => exact put c _ rfl fun hb' => absurd hb hb'
  | read c k pr rq rest up hk ho hb hrd => exact put c _ rfl fun _ => ho
  | bad c k e rest up hk ho hb hrd he => exact put c _ rfl fun hb' => absurd hb hb'
  | crash c k rest up hk ho hb hrd => exact put c _ rfl fun hb' => absurd hb hb'
  | work s up hs => exact h
  | answer c k pr rq res s b up hk ho hb hs hw => exact put c _ rfl fun hb' => absurd rfl hb'
  | answerLost c k pr rq res s b n up hk ho hb hs hw => exact put c _ rfl fun hb' => absurd rfl hb'
  | refuse c k pr rq e s up hk ho hb hs => exact put c _ rfl fun hb' => absurd rfl hb'
  | unwritable c k pr rq res e s up hk ho hb hs hw => exact put c _ rfl fun hb' => absurd rfl hb'
  | handlerCrash c k pr rq s up hk ho hb hs => exact put c _ rfl fun hb' => absurd rfl hb'
  | writeCrash c k pr rq res s up hk ho hb hs hw => exact put c _ rfl fun hb' => absurd rfl hb'

theorem busy_later {σ : Type} {K : Concurrent σ} {s0 : σ} {q : State T σ} (hl : Later P K (init s0) q) :
    ∀ c k, q.server.conns c = some k → k.busy ≠ none → k.fin = none := by
  induction hl with
  | refl => intro c k hk; cases hk
  | step _ hs ih =>
    cases hs with
    | user c s' h => exact ih
    | server who w' h net => exact busy_open h ih

/-- At rest no request is being handled. -/
theorem rest_tasks {q : State T (Desk S)} (hl : Later P (process H r) (init (Desk.init w0)) q) (hb : Rests P (still H r) q)
    (up : q.server.down = false) (hlink : ∀ c, busyReq q.server c = none → q.server.state.tasks c = none) (c : Nat) :
    q.server.state.tasks c = none := by
  have hnet := net_ok hl
  cases ht : q.server.state.tasks c with
  | none => rfl
  | some t =>
    exfalso
    obtain ⟨pr, fin⟩ := t
    cases pr with
    | call s op f =>
      refine hb { q with server := _ } ⟨.server q .handler _ (.work q.server _ up ⟨c, s, op, f, fin, ht, rfl⟩) hnet, fun he => ?_, ?_,
        fun _ => rfl, fun d x hx hfx => ⟨x, hx, hfx⟩, fun _ hd => hd, rfl⟩
      · have := congrArg (fun z : State T (Desk S) => z.server.state.calls) he
        simp at this
      · rintro d ⟨t, h1, h2⟩; exact h2 h1
    | ret y =>
      cases hbz : busyReq q.server c with
      | none => rw [hlink c hbz] at ht; cases ht
      | some rq =>
        cases hk : q.server.conns c with
        | none => unfold busyReq at hbz; rw [hk] at hbz; cases hbz
        | some k =>
          rw [busyReq_at hk] at hbz
          cases hb' : k.busy with
          | none => rw [hb'] at hbz; cases hbz
          | some z =>
            obtain ⟨p, req⟩ := z
            have ho := busy_later hl c k hk (by rw [hb']; simp)
            obtain ⟨h1, h2⟩ := hnet c k hk
            have done : ∀ {w' : Accept.World (Desk S)} {k' : Conn}, Accept.Step (still H r) q.server (.conn c) w' →
                w'.conns = (q.server.put c k').conns → w'.listening = q.server.listening → k'.fin ≠ some .lost → k'.busy = none →
                k'.sent = k.sent → k'.eof = k.eof → False := by
              intro w' k' hs hc hlis hf hbz e1 e2
              refine put_moves hb hnet hs hk hc hlis hf (fun hx => ?_) (by rw [e1]; exact h1) (by rw [e2]; exact h2)
              rw [hx, hb'] at hbz; cases hbz
            have hret : (still H r).ret q.server.state c (fin y) { q.server.state with tasks := fun z => if z = c then none else q.server.state.tasks z } :=
              ⟨y, fin, ht, rfl, rfl⟩
            cases hx : fin y with
            | err e =>
              rw [hx] at hret
              exact done (.refuse q.server c k p req e _ up hk ho hb' hret) rfl rfl (by simp) rfl rfl rfl
            | panic =>
              rw [hx] at hret
              exact done (.handlerCrash q.server c k p req _ up hk ho hb' hret) rfl rfl (by simp) rfl rfl rfl
            | ok res =>
              rw [hx] at hret
              cases hw : writeResponse p req res with
              | ok b => exact done (.answer q.server c k p req res _ b up hk ho hb' hret hw) rfl rfl (by show k.fin ≠ _; rw [ho]; simp) rfl rfl rfl
              | err e => exact done (.unwritable q.server c k p req res e _ up hk ho hb' hret hw) rfl rfl (by simp) rfl rfl rfl
              | panic => exact done (.writeCrash q.server c k p req res _ up hk ho hb' hret hw) rfl rfl (by simp) rfl rfl rfl

/-- When no call returns, a step that leaves the connections alone leaves the handler alone. -/
theorem same_conns {σ : Type} {K : Concurrent σ} {w u : Accept.World σ} {who : Who} (hs : Accept.Step K w who u) (hne : who ≠ .handler)
    (hret : ∀ c x s', ¬ K.ret w.state c x s') (hc : u.conns = w.conns) : u.state = w.state := by
  cases hs with
  | read c k pr rq rest up hk ho hb hrd =>
    exfalso
    have h1 := congrFun hc c
    have h1 : (if c = c then some { k with proto := some pr, avail := rest, busy := some (pr, rq) } else w.conns c) = w.conns c := h1
    rw [if_pos rfl, hk] at h1
    have h2 := congrArg Conn.busy (Option.some.inj h1)
    have h2 : some (pr, rq) = k.busy := h2
    rw [hb] at h2; cases h2
  | work s up hs => exact absurd rfl hne
  | answer c k pr rq res s b up hk ho hb hs hw => exact absurd hs (hret _ _ _)
  | answerLost c k pr rq res s b n up hk ho hb hs hw => exact absurd hs (hret _ _ _)
  | refuse c k pr rq e s up hk ho hb hs => exact absurd hs (hret _ _ _)
  | unwritable c k pr rq res e s up hk ho hb hs hw => exact absurd hs (hret _ _ _)
  | handlerCrash c k pr rq s up hk ho hb hs => exact absurd hs (hret _ _ _)
  | writeCrash c k pr rq res s up hk ho hb hs hw => exact absurd hs (hret _ _ _)
  | _ => rfl

/-- The router at rest is an atomic server at rest. -/
theorem rest_swap {q : State T (Desk S)} (hb : Rests P (still H r) q) {a : Atomic (Shelf × List Nat)}
    (hwait : ∀ c, a.waiting c = none) (hready : ∀ c, a.ready c = none) : Rests P (atomically timed) (swap q a) := by
  intro q2 hm
  obtain ⟨hs, hne, h3, h4, h5, h6, h7⟩ := hm
  cases hs with
  | user c s' h =>
    refine hb { q with users := fun d => if d = c then s' else q.users d } ⟨.user q c s' h, fun he => hne ?_, h3, h4, h5, h6, h7⟩
    have : (fun d => if d = c then s' else q.users d) = q.users := congrArg State.users he
    show (⟨lift q.server a, fun d => if d = c then s' else q.users d⟩ : State T _) = swap q a
    rw [this]
    rfl
  | server who w' h net =>
    by_cases hw : who = .handler
    · subst hw
      cases h with
      | work s up hs =>
        obtain ⟨c, req, hreq, _⟩ := hs
        have hreq : a.waiting c = some req := hreq
        rw [hwait c] at hreq; cases hreq
    · obtain ⟨t', h1, h2⟩ := replace (K := still H r) (R := fun (s : Atomic (Shelf × List Nat)) (_ : Desk S) => ∀ c, s.ready c = none)
        (t := q.server.state) (fun s t c req h => h)
        (fun s t c x s' h hr => by
          obtain ⟨e, _⟩ := hr
          rw [h c] at e; cases e) h hw hready
      refine hb { q with server := lift w' t' } ⟨.server q who _ h1 net, fun he => hne ?_, h3, h4, h5, h6, h7⟩
      have he : lift w' t' = q.server := congrArg State.server he
      have hc : w'.conns = q.server.conns := congrArg Accept.World.conns he
      have hst := same_conns h hw (fun c x s' hr => by
        obtain ⟨e, _⟩ := hr
        have e : a.ready c = some x := e
        rw [hready c] at e; cases e) hc
      have hst : w'.state = a := hst
      have e1 : w'.listening = q.server.listening := congrArg Accept.World.listening he
      have e2 : w'.down = q.server.down := congrArg Accept.World.down he
      show (⟨w', q.users⟩ : State T _) = ⟨lift q.server a, q.users⟩
      have : w' = lift q.server a := by
        cases w'
        simp only at hst hc e1 e2
        subst hst hc e1 e2
        rfl
      rw [this]

/-- The whole at one moment, with a shelf that answers at once in place of the router. -/
theorem one_moment (hC : RouterClients P) (hr : TwoRings H name ps qs r) {t : Nat} (ht : ∀ s, (w0 s).now = t) {q : State T (Desk S)}
    (hl : Later P (process H r) (init (Desk.init w0)) q) (hh : Healthy w0 q.server.state.calls) :
    ∃ ds a, Later P (atomically timed) (init (.init (onPrimaries H r t w0, ds))) (swap q a)
      ∧ (∀ c, busyReq q.server c = none → q.server.state.tasks c = none)
      ∧ ∀ c, q.server.state.tasks c = none → a.waiting c = none ∧ a.ready c = none := by
  obtain ⟨p, hp⟩ : ∃ p : Bytes → S, ∀ k, r.primary.pick H k = .ok (p k) :=
    ⟨fun k => (hr.picks k).choose, fun k => (hr.picks k).choose_spec.choose_spec.1⟩
  obtain ⟨s, hs⟩ : ∃ q : Bytes → S, ∀ k, r.secondary.pick H k = .ok (q k) :=
    ⟨fun k => (hr.picks k).choose_spec.choose, fun k => (hr.picks k).choose_spec.choose_spec.2⟩
  have hne : ∀ k k', p k ≠ s k' := fun k k' => hr.ne (hp k) (hs k')
  have h0 : Rel H r p s q.server.state.calls (init (Desk.init w0) : State T (Desk S)).server.state (.init (onPrimaries H r t w0))
      (busyReq (init (Desk.init w0) : State T (Desk S)).server) :=
    ⟨Nat.zero_le _, hh, rfl, ht, fun c => ⟨rfl, rfl, rfl⟩⟩
  obtain ⟨a1, l1, r1, n1⟩ := sim_joint hp hs hne hl net_init (good_requests hC hl) (Nat.le_refl _) h0
  obtain ⟨b1, e1, m1⟩ := lag_later l1 (a0 := (.init (onPrimaries H r t w0), 0)) rfl
  obtain ⟨ds, k1⟩ := ahead_later m1
  have e1 : now b1 = a1 := e1
  refine ⟨ds, ahead b1.1 [], by have := k1 []; rw [List.append_nil] at this; exact this, fun c hc => ?_, fun c hc => ?_⟩
  · have := r1.link c
    rw [hc] at this
    exact this.1
  · have h := r1.link c
    rw [hc, ← e1] at h
    show b1.1.waiting c = none ∧ b1.1.ready c = none
    cases hb : busyReq q.server c with
    | none => rw [hb] at h; exact h.2
    | some rq =>
      rw [hb] at h
      rcases h with ⟨h1, _⟩ | ⟨_, _, _, _, h1, _⟩ <;> cases h1

/-- **C83 (all return).** When nothing more happens by itself, all calls of a client have returned, whatever the other
clients do, if none of its goroutines has panicked, and if the router has accepted its connection and has not lost it.
Together with `C83_linear`: if nothing has happened to the connection either, the order has exactly the calls of this
client that have returned, with the results they have returned. -/
theorem C83_return (hC : RouterClients P) (hr : TwoRings H name ps qs r) {t : Nat} (ht : ∀ s, (w0 s).now = t) {q : State T (Desk S)}
    (hl : Later P (process H r) (init (Desk.init w0)) q) (hh : Healthy w0 q.server.state.calls) (hb : RouterRests P H r q) :
    ∃ order, Accounts P (onPrimaries H r t w0) q.users order ∧ OnShelf H r (onPrimaries H r t w0) q.server.state.world order
      ∧ ∀ c, (q.users c).crashed = false →
        ((q.users c).isOpen = true → (q.users c).ended = false → (q.users c).sent ≠ [] →
          ∃ k, q.server.conns c = some k ∧ k.fin ≠ some .lost) →
        AllDone (q.users c) ∧
        (¬ Sched.Trouble (P c) (q.users c) → ofClient c (played (onPrimaries H r t w0) order) = (q.users c).log) := by
  obtain ⟨order, hA, hS⟩ := C83_linear hC hr ht hl hh
  refine ⟨order, hA, hS, fun c hcr hacc => ?_⟩
  obtain ⟨ds, a, l1, e1, e2⟩ := one_moment hC hr ht hl hh
  have hw : ∀ c, Courteous timed (protoOf (P c).kind) (fun z => Small z.1) (RouterAsk (P c).kind) := fun c => timed_courteous _
  have hI : Small (onPrimaries H r t w0) := small_primaries hh t
  have hb' := router_rests.1 hb
  have up := (C81_up (router_clients hC) hw hI l1).1
  have htasks := rest_tasks hl hb' up e1
  have hrest := rest_swap hb' (fun c => (e2 c (htasks c)).1) (fun c => (e2 c (htasks c)).2)
  have hdone := (C81_return (router_clients hC) hw hI l1 hrest c hcr hacc).1
  have hdone : AllDone (q.users c) := hdone
  refine ⟨hdone, fun hn => ?_⟩
  obtain ⟨good, bad, rest, h1, h2, h3, _, _, h5⟩ := hA c
  have hbad : bad = [] := by
    cases bad with
    | nil => rfl
    | cons e more => exact absurd (h3 e.1 e.2 more rfl).2 hn
  have hrest : rest = [] := by
    rcases h5 hbad with h6 | ⟨t, e, _, _, h6⟩
    · exact h6
    · rw [hdone t] at h6; cases h6
  rw [h1, h2, hbad, hrest]

/-! ### How many calls the router makes until then -/

theorem todo_drop {s s' : Sched.State T} {t : T} {a : Sched.At} (hp : s'.pc = (s.goto t a).pc) {n : Nat} (ha : a.cost + n ≤ (s.pc t).cost) :
    ∀ {ts : List T}, t ∈ ts → Sched.todo ts s' + n ≤ Sched.todo ts s := by
  have hpc : ∀ u, (s'.pc u).cost ≤ (s.pc u).cost := by
    intro u
    rw [hp, Sched.goto_pc]
    by_cases hu : u = t
    · subst hu; rw [if_pos rfl]; omega
    · rw [if_neg hu]; exact Nat.le_refl _
  have hle : ∀ l : List T, Sched.todo l s' ≤ Sched.todo l s := fun l => Sched.sum_le _ _ l fun u _ => hpc u
  intro ts
  induction ts with
  | nil => intro h; cases h
  | cons b ts ih =>
    intro hm
    show (s'.pc b).cost + Sched.todo ts s' + n ≤ (s.pc b).cost + Sched.todo ts s
    by_cases hu : b = t
    · have := hle ts
      subst hu
      rw [hp, Sched.goto_pc, if_pos rfl]
      omega
    · have h1 := ih ((List.mem_cons.1 hm).resolve_left fun e => hu e.symm)
      have h2 := hpc b
      omega

theorem sent_bound {R : Sched.Params T} {ts : List T} {s s' : Sched.State T} (ham : Sched.Among ts s) (hw : Works R s s') :
    s'.sent.length + Sched.todo ts s' ≤ s.sent.length + Sched.todo ts s := by
  rcases sent_todo ham hw with h | ⟨h1, h2, _⟩
  · have hs := hw.1
    cases hs with
    | write t c x y hp ho hwerr =>
      have key := todo_drop (s' := { s.goto t (.writing c y) with sent := s.sent ++ x }) (s := s) (t := t) (a := .writing c y) rfl (n := x.length)
        (by rw [hp]; simp only [Sched.At.cost, List.length_append]; omega) (ham t (by rw [hp]; simp))
      show (s.sent ++ x).length + _ ≤ _
      rw [List.length_append]
      omega
    | _ => exact Nat.add_le_add_left (Nat.le_of_lt h) _
  · rw [h1, h2]; exact Nat.le_refl _

theorem step_calls {w u : Accept.World (Desk S)} {who : Who} (hs : Accept.Step (still H r) w who u) : u.state.calls ≤ w.state.calls + 1 := by
  have ret : ∀ {c : Nat} {x : Res (List Response)} {d : Desk S}, (still H r).ret w.state c x d → d.calls ≤ w.state.calls + 1 := by
    rintro c x d ⟨y, fin, _, _, rfl⟩
    exact Nat.le_succ _
  cases hs with
  | work d up hs =>
    obtain ⟨c, sv, op, f, fin, _, rfl⟩ := hs
    exact Nat.le_refl _
  | answer c k q req res d b up hk ho hb hs hwr => exact ret hs
  | answerLost c k q req res d b n up hk ho hb hs hwr => exact ret hs
  | refuse c k q req e d up hk ho hb hs => exact ret hs
  | unwritable c k q req res e d up hk ho hb hs hwr => exact ret hs
  | handlerCrash c k q req d up hk ho hb hs => exact ret hs
  | writeCrash c k q req res d up hk ho hb hs hwr => exact ret hs
  | _ => exact Nat.le_succ _

theorem calls_bound {q q' : State T (Desk S)} {cs : List Nat} {ts : Nat → List T} (hw : Within Modest deskOwes cs ts q)
    (hm : RouterMovesOn P H r q q') :
    Within Modest deskOwes cs ts q' ∧ q'.server.state.calls
      + (cs.map fun c => owed deskOwes q'.server c ((q.users c).sent.length + Sched.todo (ts c) (q.users c))).sum
      ≤ q.server.state.calls + (cs.map fun c => owed deskOwes q.server c ((q.users c).sent.length + Sched.todo (ts c) (q.users c))).sum
      ∧ ∀ c, (q'.users c).sent.length + Sched.todo (ts c) (q'.users c) ≤ (q.users c).sent.length + Sched.todo (ts c) (q.users c) := by
  induction hm with
  | refl => exact ⟨hw, Nat.le_refl _, fun _ => Nat.le_refl _⟩
  | @step v u _ hs ih =>
    obtain ⟨g1, g2, g3⟩ := ih
    have hmv := router_moves.1 hs
    refine ⟨(moves_measure (still_winds H r) g1 hmv).1, ?_⟩
    obtain ⟨hs, hne, hst, hen, hlost, hacc, hlis⟩ := hmv
    cases hs with
    | user c s' h =>
      refine ⟨g2, fun d => ?_⟩
      show (if d = c then s' else v.users d).sent.length + Sched.todo (ts d) (if d = c then s' else v.users d) ≤ _
      by_cases hd : d = c
      · subst hd
        rw [if_pos rfl]
        have hworks : Works { P d with resp := fun _ => v.out d } (v.users d) s' := by
          refine ⟨h, fun he => ?_, ?_⟩
          · apply hne
            have : (fun x => if x = d then s' else v.users x) = v.users := by
              funext x
              by_cases hx : x = d
              · rw [if_pos hx, he, hx]
              · rw [if_neg hx]
            rw [this]
          · have h1 : ¬ Starts (v.users d) (if d = d then s' else v.users d) := hst d
            rwa [if_pos rfl] at h1
        exact Nat.le_trans (sent_bound (g1.among d) hworks) (g3 d)
      · rw [if_neg hd]; exact g3 d
    | server who w' h net =>
      refine ⟨?_, g3⟩
      have hne' : w' ≠ v.server := fun he => hne (by rw [he])
      obtain ⟨_, c, h1, h2, h3⟩ := server_owed (still_winds H r) h g1.inside
        (u := fun d => (q.users d).sent.length + Sched.todo (ts d) (q.users d))
        (fun d k hk => Nat.le_trans (net d k hk).1.length_le (Nat.le_trans (Nat.le_add_right _ _) (g3 d))) hne' hacc hlis
      have hc : c ∈ cs := by
        apply Classical.byContradiction
        intro hc
        have h4 := g1.conns c hc
        rcases h1 with ⟨k, hk⟩ | hreq
        · rw [h4] at hk; cases hk
        · rw [g1.waiting c h4] at hreq; cases hreq
      have hlt : (cs.map fun d => owed deskOwes w' d ((q.users d).sent.length + Sched.todo (ts d) (q.users d))).sum
          < (cs.map fun d => owed deskOwes v.server d ((q.users d).sent.length + Sched.todo (ts d) (q.users d))).sum := sum_change hc h2 h3
      have := step_calls h
      show w'.state.calls + (cs.map fun d => owed deskOwes w' d ((q.users d).sent.length + Sched.todo (ts d) (q.users d))).sum ≤ _
      omega

/-- **C83 (all calls can return).** Whatever has happened so far, the whole can go on, without new calls, to a moment when
all calls of every client have returned that nobody closes and whose connection the router has accepted and not lost; and
unless its deadlines can pass or the connection has ended, the order has exactly these calls, with these results. -/
theorem C83_to_the_end (hC : RouterClients P) (hr : TwoRings H name ps qs r) {t : Nat} (ht : ∀ s, (w0 s).now = t) {q : State T (Desk S)}
    (hl : Later P (process H r) (init (Desk.init w0)) q) :
    ∃ q', RouterMovesOn P H r q q' ∧ RouterRests P H r q' ∧ (Healthy w0 q'.server.state.calls →
      ∃ order, Accounts P (onPrimaries H r t w0) q'.users order ∧ OnShelf H r (onPrimaries H r t w0) q'.server.state.world order
        ∧ ∀ c, (∀ t, ¬ (P c).closers t) → (∃ k, q.server.conns c = some k ∧ k.fin ≠ some .lost) →
          AllDone (q'.users c) ∧ ((q.users c).ended = false → ¬ ((P c).timeout = true ∧ (P c).late = true) →
            ofClient c (played (onPrimaries H r t w0) order) = (q'.users c).log)) := by
  obtain ⟨q', h1, h2⟩ := C83_run_on hl
  refine ⟨q', h1, h2, fun hh => ?_⟩
  have hl' := hl.trans' h1.later
  obtain ⟨order, g1, g2, g3⟩ := C83_return hC hr ht hl' hh h2
  refine ⟨order, g1, g2, fun c hcl hacc => ?_⟩
  obtain ⟨k, hk, hf⟩ := hacc
  obtain ⟨e1, e2⟩ := movesOn_keeps (router_movesOn.1 h1) c
  obtain ⟨k', hk', hf'⟩ := e2 k hk hf
  obtain ⟨l, hreach⟩ := reach_any hl' c
  have hun := Sched.unclosed (P := own P c l) hcl hreach
  obtain ⟨d1, d2⟩ := g3 c hun.fine fun _ _ _ => ⟨k', hk', hf'⟩
  refine ⟨d1, fun hen hto => d2 ?_⟩
  rintro (ht | ht | ht)
  · rw [hun.isOpen] at ht; cases ht
  · rw [e1, hen] at ht; cases ht
  · exact hto ht

end Joint
end Verif
