import Verif.Props.JointPlan
/-!
C83: any number of clients, each shared by goroutines, connected to one router with its two rings of memcached servers.
-/

namespace Verif
namespace Joint
open Srv Srv.Accept Spec Props
open Pool (Hashes)
open Cluster (ReplicaPool)
open Proxy (Desk process)

variable {T : Type} [DecidableEq T] {S : Type} [DecidableEq S]

/-! ### One order of all calls -/

/-- The results the calls have if the answers mean anything. -/
inductive Tells : List Use → List (Request × Res (List Response)) → List (Call Out × Res Out) → Prop where
  | nil : Tells [] [] []
  | cons {u us req a calls x l} (says : ∀ rs y, a = .ok rs → Gives (protoOf u.kind) (askOf u) [rs] y → x = y.map Said.toOut)
      (rest : Tells us calls l) : Tells (u :: us) ((req, a) :: calls) ((u.call, x) :: l)

theorem tells_calls {us : List Use} {calls : List (Request × Res (List Response))} {l : List (Call Out × Res Out)}
    (h : Tells us calls l) : l.map (·.1) = us.map (·.call) := by
  induction h with
  | nil => rfl
  | cons _ _ ih => simp [ih]

theorem tells_append {us : List Use} {calls : List (Request × Res (List Response))} {l : List (Call Out × Res Out)}
    (h : Tells us calls l) {us2 : List Use} {calls2 : List (Request × Res (List Response))} {l2 : List (Call Out × Res Out)}
    (h2 : Tells us2 calls2 l2) : Tells (us ++ us2) (calls ++ calls2) (l ++ l2) := by
  induction h with
  | nil => exact h2
  | cons says _ ih => exact .cons says ih

theorem told_tells {us : List Use} {calls : List (Request × Res (List Response))} {good : List (Call Out × Res Out)}
    (h : Told us calls good) : ∀ {vs : List Use} {l : List (Call Out × Res Out)}, Tells (us ++ vs) calls l →
    ∃ rest, l = good ++ rest ∧ rest.map (·.1) = vs.map (·.call) := by
  induction h with
  | nil => intro vs l ht; exact ⟨l, rfl, tells_calls ht⟩
  | cons gives _ ih =>
    intro vs l ht
    cases ht with
    | cons says rest =>
      obtain ⟨more, rfl, h2⟩ := ih rest
      rw [says _ _ rfl gives]
      exact ⟨more, rfl, h2⟩

theorem callsFrom_cons (c d : Nat) (e : Request × Res (List Response)) (l : List (Nat × Request × Res (List Response))) :
    callsFrom c ((d, e) :: l) = if d = c then e :: callsFrom c l else callsFrom c l := by
  unfold callsFrom
  by_cases h : d = c
  · subst h; simp
  · rw [if_neg h]; simp [h]

theorem ofClient_cons (c d : Nat) (e : Call Out × Res Out) (l : List (Nat × Call Out × Res Out)) :
    ofClient c ((d, e) :: l) = if d = c then e :: ofClient c l else ofClient c l := by
  unfold ofClient
  by_cases h : d = c
  · subst h; simp
  · rw [if_neg h]; simp [h]

theorem ofClient_append (c : Nat) (l m : List (Nat × Call Out × Res Out)) : ofClient c (l ++ m) = ofClient c l ++ ofClient c m := by
  simp [ofClient]

theorem played_append (s : Shelf) (o1 o2 : List (Nat × Nat × Use)) :
    played s (o1 ++ o2) = played s o1 ++ played (shelfAfter s o1) o2 := by
  induction o1 generalizing s with
  | nil => rfl
  | cons e o1 ih =>
    obtain ⟨c, d, u⟩ := e
    show _ :: played _ (o1 ++ o2) = _ :: (played _ o1 ++ _)
    rw [ih]
    rfl

theorem shelfAfter_append (s : Shelf) (o1 o2 : List (Nat × Nat × Use)) : shelfAfter s (o1 ++ o2) = shelfAfter (shelfAfter s o1) o2 := by
  induction o1 generalizing s with
  | nil => rfl
  | cons e o1 ih => obtain ⟨c, d, u⟩ := e; exact ih _

/-- The requests in the order in which the shelf has answered them, as calls. -/
theorem order_of : ∀ (log : List (Nat × Request × Res (List Response))) (s : Shelf) (ds : List Nat) (z : Shelf × List Nat) (use : Nat → List Use),
    Gave timed (s, ds) (log.map (·.2)) z → (∀ c, (callsFrom c log).map (·.1) = (use c).map useReq) → (∀ c, ∀ u ∈ use c, u.Good) → Small s →
    ∃ order, Small z.1 ∧ shelfAfter s order = z.1 ∧ ∀ c, Tells (use c) (callsFrom c log) (ofClient c (played s order)) := by
  intro log
  induction log with
  | nil =>
    intro s ds z use hg hu _ hs
    have hg : (s, ds) = z := hg
    subst hg
    refine ⟨[], hs, rfl, fun c => ?_⟩
    have := hu c
    cases hc : use c with
    | nil => exact .nil
    | cons u us => rw [hc] at this; cases this
  | cons e log ih =>
    intro s ds z use hg hu hgood hs
    obtain ⟨d, req, a⟩ := e
    obtain ⟨ha, hg⟩ : (timed (s, ds) req).1 = a ∧ Gave timed (timed (s, ds) req).2 (log.map fun x : Nat × Request × Res (List Response) => x.2) z := hg
    have hd := hu d
    rw [callsFrom_cons, if_pos rfl] at hd
    cases hud : use d with
    | nil => rw [hud] at hd; cases hd
    | cons u us =>
      rw [hud] at hd
      obtain ⟨hreq, hd⟩ := List.cons.inj hd
      have hreq : req = useReq u := hreq
      have hugood : u.Good := hgood d u (by rw [hud]; simp)
      have hs' : Small (s.tick (ds.headD 0)) := hs
      obtain ⟨res, e1, _, e2⟩ := use_answer u hugood hs'
      have hnext : (timed (s, ds) req).2 = ((u.outcome (s.tick (ds.headD 0))).2, ds.tail) := by
        rw [hreq, ← e2]; rfl
      rw [hnext] at hg
      obtain ⟨order, h1, h2, h3⟩ := ih _ _ z (fun c => if d = c then us else use c) hg (fun c => by
        by_cases hc : d = c
        · subst hc; rw [if_pos rfl]; exact hd
        · rw [if_neg hc]
          have := hu c
          rw [callsFrom_cons, if_neg hc] at this
          exact this) (fun c x hx => by
        by_cases hc : d = c
        · subst hc
          rw [if_pos rfl] at hx
          exact hgood d x (by rw [hud]; simp [hx])
        · rw [if_neg hc] at hx
          exact hgood c x hx) (small_outcome u hugood hs')
      refine ⟨(d, ds.headD 0, u) :: order, h1, h2, fun c => ?_⟩
      have h3c := h3 c
      show Tells (use c) _ (ofClient c ((d, u.call, (u.outcome (s.tick (ds.headD 0))).1) :: played _ order))
      rw [callsFrom_cons, ofClient_cons]
      by_cases hc : d = c
      · subst hc
        rw [if_pos rfl] at h3c
        rw [if_pos rfl, if_pos rfl, hud]
        refine .cons (fun rs y hrs hy => ?_) h3c
        have : (shelfAnswer (s.tick (ds.headD 0)) (useReq u)).1 = .ok rs := by
          rw [← hrs, ← ha, hreq]; rfl
        exact (gives_outcome this hy).symm
      · rw [if_neg hc] at h3c
        rw [if_neg hc, if_neg hc]
        exact h3c

theorem accounts_of {P : Nat → Sched.Params T} {s0 : Shelf} {users : Nat → Sched.State T} {order : List (Nat × Nat × Use)}
    (h : ∀ c, ∃ calls good bad us vs, Plan (P c) (users c) calls good bad us vs ∧ Tells (us ++ vs) calls (ofClient c (played s0 order))) :
    Accounts P s0 users order := by
  intro c
  obtain ⟨calls, good, bad, us, vs, hp, ht⟩ := h c
  obtain ⟨rest, h1, h2⟩ := told_tells hp.told ht
  refine ⟨good, bad, rest, hp.log, h1, hp.fails, hp.final, fun e he => ?_, fun hb => ?_⟩
  · have : e.1 ∈ rest.map (·.1) := List.mem_map.2 ⟨e, he, rfl⟩
    rw [h2] at this
    obtain ⟨u, hu, hu'⟩ := List.mem_map.1 this
    rw [← hu']
    exact (hp.uses u (List.mem_append_right _ hu)).2.2
  · rcases hp.held hb with hv | ⟨t, u, hv, ht, hop⟩
    · left
      rw [hv] at h2
      simpa using h2
    · right
      rw [hv] at h2
      cases rest with
      | nil => cases h2
      | cons e rest =>
        cases rest with
        | cons _ _ => simp at h2
        | nil =>
          have h2 : e.1 = u.call := by simpa using h2
          exact ⟨t, e, rfl, ht, by rw [h2]; exact hop⟩

theorem gave_split {σ : Type} {h : Handler σ} : ∀ {a b : List (Request × Res (List Response))} {s y z : σ}, Gave h s a y → Gave h s (a ++ b) z →
    Gave h y b z := by
  intro a
  induction a with
  | nil => intro b s y z h1 h2; have h1 : s = y := h1; subst h1; exact h2
  | cons e a ih => intro b s y z h1 h2; exact ih h1.2 h2.2

theorem net_init {σ : Type} {s : σ} : NetOk (init s : State T σ) := by
  intro c k hk
  cases hk

/-- The requests of the clients. -/
theorem good_requests {P : Nat → Sched.Params T} (hC : RouterClients P) {σ : Type} {K : Concurrent σ} {s0 : σ} {q : State T σ}
    (hl : Later P K (init s0) q) : ∀ c req, Asked q.server c req → GoodRequest req := by
  rintro c req ⟨k, hk, hm⟩
  obtain ⟨a, ⟨u, hu, hku, rfl⟩, hreq⟩ := requests_any (router_clients hC) (fun c a ha => router_fit ha) hl hk req hm
  rw [← hku, asked_use hu] at hreq
  rw [List.mem_singleton.1 hreq]
  exact use_request u hu

theorem small_primaries {H : Hashes} {r : ReplicaPool S} {w0 : Pool.World S}
    {n : Nat} (hh : Healthy w0 n) (t : Nat) : Small (onPrimaries H r t w0) := by
  intro k v x hd
  unfold onPrimaries at hd
  simp only at hd
  split at hd
  · rename_i p _
    cases he : (w0 p).data k with
    | none => rw [he] at hd; cases hd
    | some e =>
      rw [he] at hd
      cases hd
      exact ((hh.1 p).1.good.entry k e he).2.2.1
  · cases hd

variable {H : Hashes} {name : S → Bytes} {ps qs : List S} {r : ReplicaPool S} {w0 : Pool.World S} {P : Nat → Sched.Params T}

/-- The whole, as it is at two moments, with a shelf that answers at once in place of the router. -/
theorem two_moments (hC : RouterClients P) (hr : TwoRings H name ps qs r) {t : Nat} (ht : ∀ s, (w0 s).now = t) {q q' : State T (Desk S)}
    (hl : Later P (process H r) (init (Desk.init w0)) q) (hl' : Later P (process H r) q q') (hh : Healthy w0 q'.server.state.calls) :
    ∃ ds a a', Later P (atomically timed) (init (.init (onPrimaries H r t w0, ds))) (swap q a)
      ∧ Later P (atomically timed) (swap q a) (swap q' a')
      ∧ (∃ d, a.own.1.tick d = onPrimaries H r (a.own.1.tick d).now q.server.state.world)
      ∧ (∃ d, a'.own.1.tick d = onPrimaries H r (a'.own.1.tick d).now q'.server.state.world) := by
  obtain ⟨p, hp⟩ : ∃ p : Bytes → S, ∀ k, r.primary.pick H k = .ok (p k) :=
    ⟨fun k => (hr.picks k).choose, fun k => (hr.picks k).choose_spec.choose_spec.1⟩
  obtain ⟨s, hs⟩ : ∃ q : Bytes → S, ∀ k, r.secondary.pick H k = .ok (q k) :=
    ⟨fun k => (hr.picks k).choose_spec.choose, fun k => (hr.picks k).choose_spec.choose_spec.2⟩
  have hne : ∀ k k', p k ≠ s k' := fun k k' => hr.ne (hp k) (hs k')
  have h0 : Rel H r p s q'.server.state.calls (init (Desk.init w0) : State T (Desk S)).server.state (.init (onPrimaries H r t w0))
      (busyReq (init (Desk.init w0) : State T (Desk S)).server) :=
    ⟨Nat.zero_le _, hh, rfl, ht, fun c => ⟨rfl, rfl, rfl⟩⟩
  have hcalls : q.server.state.calls ≤ q'.server.state.calls := by
    clear hh h0
    induction hl' with
    | refl => exact Nat.le_refl _
    | step _ hs ih =>
      cases hs with
      | user c s' h => exact ih
      | server who w' h net => exact Nat.le_trans ih (calls_step h)
  obtain ⟨a1, l1, r1, n1⟩ := sim_joint hp hs hne hl net_init (good_requests hC hl) hcalls h0
  obtain ⟨a2, l2, r2, n2⟩ := sim_joint hp hs hne hl' n1 (good_requests hC (hl.trans hl')) (Nat.le_refl _) r1
  obtain ⟨b1, e1, m1⟩ := lag_later l1 (a0 := (.init (onPrimaries H r t w0), 0)) rfl
  obtain ⟨b2, e2, m2⟩ := lag_later l2 (a0 := b1) e1
  obtain ⟨ds, k1⟩ := ahead_later m1
  obtain ⟨es, k2⟩ := ahead_later m2
  have e1 : now b1 = a1 := e1
  have e2 : now b2 = a2 := e2
  refine ⟨ds ++ es, ahead b1.1 es, ahead b2.1 [], k1 es, ?_, ⟨b1.2, ?_⟩, ⟨b2.2, ?_⟩⟩
  · have := k2 []
    rw [List.append_nil] at this
    exact this
  · have := r1.shelf
    rw [← e1] at this
    exact this
  · have := r2.shelf
    rw [← e2] at this
    exact this

/-- **C83 (real time).** Any number of clients of this module, each shared by goroutines, connected to one router with its
two rings of memcached servers; any schedule, `Close` at any time.  Take any two moments `q` and `q'`.  All the calls of
all clients that have taken effect at `q` have one order, and those that take effect between `q` and `q'` have one order,
such that carried out one after the other on one shelf of values, the ones before the others, they give exactly the
results the goroutines have seen at `q` and at `q'`.  What the primaries hold is what is then on the shelf. -/
theorem C83_real_time (hC : RouterClients P) (hr : TwoRings H name ps qs r) {t : Nat} (ht : ∀ s, (w0 s).now = t) {q q' : State T (Desk S)}
    (hl : Later P (process H r) (init (Desk.init w0)) q) (hl' : Later P (process H r) q q') (hh : Healthy w0 q'.server.state.calls) :
    ∃ order late, Accounts P (onPrimaries H r t w0) q.users order ∧ Accounts P (onPrimaries H r t w0) q'.users (order ++ late)
      ∧ OnShelf H r (onPrimaries H r t w0) q.server.state.world order
      ∧ OnShelf H r (onPrimaries H r t w0) q'.server.state.world (order ++ late) := by
  obtain ⟨ds, a, a', l1, l2, ⟨d, hd⟩, ⟨d', hd'⟩⟩ := two_moments hC hr ht hl hl' hh
  have hI : Small (onPrimaries H r t w0) := small_primaries hh t
  have hw : ∀ c, Courteous timed (protoOf (P c).kind) (fun z => Small z.1) (RouterAsk (P c).kind) := fun c => timed_courteous _
  have g1 := (C56_linear (server_run l1)).1
  have g2 := (C56_linear (server_run (l1.trans l2))).1
  obtain ⟨late, hlate⟩ := C56_real_time (server_later l2)
  have hlate : a.log ++ late = a'.log := hlate
  have g1 : Gave timed (onPrimaries H r t w0, ds) (a.log.map (·.2)) a.own := g1
  have g2 : Gave timed (onPrimaries H r t w0, ds) (a'.log.map (·.2)) a'.own := g2
  rw [← hlate, List.map_append] at g2
  have g3 := gave_split g1 g2
  have plans : ∀ c, ∃ wm : List Use × List Use, (∃ good bad us vs, Plan (P c) (q.users c) (callsFrom c a.log) good bad us vs ∧ us ++ vs = wm.1) ∧
      ∃ good bad us vs, Plan (P c) (q'.users c) (callsFrom c a'.log) good bad us vs ∧ us ++ vs = wm.1 ++ wm.2 := by
    intro c
    obtain ⟨good, bad, us, vs, hp⟩ := plan_free hC hw hI l1 c
    obtain ⟨good', bad', us', vs', more, hp', he⟩ := plan_extends hC hw hI l1 l2 c hp
    exact ⟨(us ++ vs, more), ⟨good, bad, us, vs, hp, rfl⟩, good', bad', us', vs', hp', he⟩
  obtain ⟨wm, hwm⟩ := Classical.axiomOfChoice plans
  have reqs1 : ∀ c, (callsFrom c a.log).map (·.1) = (wm c).1.map useReq := by
    intro c
    obtain ⟨⟨_, _, us, vs, hp, he⟩, _⟩ := hwm c
    rw [← he]; exact hp.reqs
  have reqs2 : ∀ c, (callsFrom c a'.log).map (·.1) = ((wm c).1 ++ (wm c).2).map useReq := by
    intro c
    obtain ⟨_, _, _, us, vs, hp, he⟩ := hwm c
    rw [← he]; exact hp.reqs
  have fine : ∀ c, ∀ u ∈ (wm c).1 ++ (wm c).2, u.Good := by
    intro c u hu
    obtain ⟨_, _, _, us, vs, hp, he⟩ := hwm c
    exact (hp.uses u (by rw [he]; exact hu)).1
  obtain ⟨o1, k1, k2, k3⟩ := order_of a.log _ _ _ (fun c => (wm c).1) g1 reqs1 (fun c u hu => fine c u (List.mem_append_left _ hu)) hI
  obtain ⟨o2, m1, m2, m3⟩ := order_of late _ _ _ (fun c => (wm c).2) g3 (fun c => by
      have h1 := reqs2 c
      rw [← hlate, callsFrom_append, List.map_append, reqs1 c, List.map_append] at h1
      exact List.append_cancel_left h1) (fun c u hu => fine c u (List.mem_append_right _ hu)) k1
  refine ⟨o1, o2, accounts_of fun c => ?_, accounts_of fun c => ?_, ⟨d, ?_⟩, ⟨d', ?_⟩⟩
  · obtain ⟨⟨good, bad, us, vs, hp, he⟩, _⟩ := hwm c
    exact ⟨_, _, _, _, _, hp, by rw [he]; exact k3 c⟩
  · obtain ⟨_, good, bad, us, vs, hp, he⟩ := hwm c
    refine ⟨_, _, _, _, _, hp, ?_⟩
    rw [he, ← hlate, callsFrom_append, played_append, ofClient_append, k2]
    exact tells_append (k3 c) (m3 c)
  · rw [k2]; exact hd.symm
  · rw [shelfAfter_append, k2, m2]; exact hd'.symm

/-- **C83 (linear).** The same for one moment. -/
theorem C83_linear (hC : RouterClients P) (hr : TwoRings H name ps qs r) {t : Nat} (ht : ∀ s, (w0 s).now = t) {q : State T (Desk S)}
    (hl : Later P (process H r) (init (Desk.init w0)) q) (hh : Healthy w0 q.server.state.calls) :
    ∃ order, Accounts P (onPrimaries H r t w0) q.users order ∧ OnShelf H r (onPrimaries H r t w0) q.server.state.world order := by
  obtain ⟨order, _, h1, _, h2, _⟩ := C83_real_time hC hr ht hl .refl hh
  exact ⟨order, h1, h2⟩

end Joint
end Verif
