import Verif.Props.Served
import Verif.Props.Router
import Verif.Spec.JointRouter
/-!
C80 with a router (cmd/router) on the other side.
-/

namespace Verif
namespace Spec

/-- Goroutines use a client whose other side is a router; the memcached servers behind it hold `w0` when the connection
is accepted, and nobody else uses it. -/
structure ShareRouter {T S : Type} [DecidableEq S] (P : Sched.Params T) (H : Pool.Hashes) (name : S → Bytes) (r : Cluster.ReplicaPool S)
    (w0 : Pool.World S) : Prop where
  resp : P.resp = fun i => (Srv.serve (Props.router H name r) none w0 i).out
  calls : ∀ c, P.calls c → ∃ u : Use, u.Good ∧ u.kind = P.kind ∧ c = u.call

end Spec

namespace Served
open Srv Spec Props

variable {T : Type} [DecidableEq T] {S : Type} [DecidableEq S] {σ : Type}

/-- What the server has written to `sent`, and what it will write to the rest. -/
def Wrote (h : Handler σ) (p : Protocol) (s0 : σ) (sent : Bytes) (out : Bytes) (s : σ) : Prop :=
  ∀ rest, ∃ q, (q = none ∨ q = some p) ∧ (serve h none s0 (sent ++ rest)).out = out ++ (serve h q s rest).out

theorem Wrote.here {h : Handler σ} {p : Protocol} {s0 s : σ} {sent out : Bytes} (W : Wrote h p s0 sent out s) :
    (serve h none s0 sent).out = out := by
  obtain ⟨q, _, e⟩ := W []
  rw [serve_end, List.append_nil] at e
  simpa using e

theorem kind_protocol {u v : Use} (h : u.kind = v.kind) : u.protocol = v.protocol := by
  cases u <;> cases v <;> first | rfl | cases h

theorem use_clientCall (u : Use) : Sched.ClientCall u.kind u.call := by
  cases u with
  | textSet i => exact .text [] (.set i)
  | metaGet k => exact .metap (.get k)
  | metaSet i => exact .metap (.set i)
  | binGet h k => exact .binary h {} (.get k)
  | binSet h i => exact .binary h {} (.set i)

theorem visits_turn {h : Handler (Pool.World S)} {w0 : Pool.World S} (p : Protocol) : ∀ (us : List Use) (w w' : Pool.World S)
    (xs : List (Res Out)), (∀ u ∈ us, u.protocol = p) →
    Visits h w (us.map fun u => (0, u.protocol, u.call)) xs w' → ∀ {sent out : Bytes}, Wrote h p w0 sent out w →
    oneByOne (fun i => (serve h none w0 i).out) sent [] (us.map (·.call)) = xs
    ∧ Sched.leftover (fun i => (serve h none w0 i).out) sent [] (us.map (·.call)) = [] := by
  intro us
  induction us with
  | nil =>
    intro w w' xs _ hv sent out _
    cases hv
    exact ⟨rfl, rfl⟩
  | cons u us ih =>
    intro w w' xs hp hv sent out W
    have hpu := hp u (by simp)
    rw [List.map_cons] at hv
    cases hv with
    | @cons _ w1 _ _ _ _ x _ xs hs hrest =>
      have hs' : Served h p w u.call x w1 := hpu ▸ hs
      obtain ⟨wire, reply, hw, hsrv, hrd⟩ := hs'
      have W1 : Wrote h p w0 (sent ++ wire) (out ++ reply) w1 := by
        intro rest
        obtain ⟨q, hq, e⟩ := W (wire ++ rest)
        refine ⟨some p, .inr rfl, ?_⟩
        rw [List.append_assoc, e, (hsrv q rest hq).1, List.append_assoc]
      have hrep : replyTo (fun i => (serve h none w0 i).out) sent wire = reply := by
        show List.drop (serve h none w0 sent).out.length (serve h none w0 (sent ++ wire)).out = reply
        rw [W.here, W1.here]
        simp
      have hrd' : u.call.rd ([] ++ replyTo (fun i => (serve h none w0 i).out) sent wire) = (x, []) := by
        have := hrd []
        rw [List.append_nil] at this
        rw [hrep, List.nil_append, this]
      obtain ⟨e1, e2⟩ := ih w1 w' xs (fun v hv => hp v (by simp [hv])) hrest W1
      constructor
      · rw [List.map_cons, oneByOne, hw]
        simp only [hrd', e1]
      · rw [List.map_cons, Sched.leftover, hw]
        simp only [hrd', e2]

theorem uses_of {Q : Use → Prop} : ∀ cs : List (Call Out), (∀ c ∈ cs, ∃ u : Use, Q u ∧ c = u.call) →
    ∃ us : List Use, (∀ u ∈ us, Q u) ∧ cs = us.map (·.call) := by
  intro cs
  induction cs with
  | nil => intro _; exact ⟨[], by simp, rfl⟩
  | cons c cs ih =>
    intro h
    obtain ⟨o, ho, rfl⟩ := h c (by simp)
    obtain ⟨os, hos, rfl⟩ := ih fun d hd => h d (by simp [hd])
    refine ⟨o :: os, ?_, rfl⟩
    intro x hx
    rcases List.mem_cons.1 hx with rfl | hx
    · exact ho
    · exact hos x hx

theorem runUses_ok : ∀ (us : List (Nat × Use)) (s : Shelf), ∀ x ∈ (runUses s us).1, ∃ o, x = .ok o := by
  intro us
  induction us with
  | nil => intro s x hx; cases hx
  | cons du us ih =>
    intro s x hx
    obtain ⟨d, u⟩ := du
    rcases List.mem_cons.1 hx with rfl | hx
    · cases u <;> exact ⟨_, rfl⟩
    · exact ih _ x hx

variable {P : Sched.Params T} {H : Pool.Hashes} {name : S → Bytes} {ps qs : List S} {r : Cluster.ReplicaPool S} {w0 : Pool.World S}

theorem _root_.Verif.Spec.ShareRouter.client (hS : ShareRouter P H name r w0) : ∀ c, P.calls c → Sched.ClientCall P.kind c := by
  intro c hc
  obtain ⟨u, _, hk, rfl⟩ := hS.calls c hc
  rw [← hk]
  exact use_clientCall u

theorem _root_.Verif.Spec.ShareRouter.turn (hS : ShareRouter P H name r w0) (hr : TwoRings H name ps qs r) {t : Nat}
    (ht : ∀ s, (w0 s).now = t) (ha : Agree H r w0) (cs : List (Call Out)) (hw : Healthy w0 (2 * cs.length + 1))
    (hcs : ∀ c ∈ cs, P.calls c) : ∃ us : List Use, cs = us.map (·.call)
      ∧ oneByOne P.resp [] [] cs = (runUses (onPrimaries H r t w0) (us.map fun u => (0, u))).1 := by
  obtain ⟨us, hu, rfl⟩ := uses_of (Q := fun u => u.Good ∧ u.kind = P.kind) cs fun c hc => by
    obtain ⟨u, h1, h2, h3⟩ := hS.calls c (hcs c hc)
    exact ⟨u, ⟨h1, h2⟩, h3⟩
  obtain ⟨w', hv, _⟩ := C47_history hr (us.map fun u => (0, u)) (by
    intro x hx
    obtain ⟨u, h1, rfl⟩ := List.mem_map.1 hx
    exact (hu u h1).1) t ht (by simpa using hw) ha
  refine ⟨us, rfl, ?_⟩
  rw [hS.resp]
  cases us with
  | nil => rfl
  | cons v vs =>
    have hcalls : Props.calls ((v :: vs).map fun u => ((0 : Nat), u)) = (v :: vs).map fun u => ((0 : Nat), u.protocol, u.call) := by
      unfold Props.calls
      rw [List.map_map]
      rfl
    rw [hcalls] at hv
    exact (visits_turn (w0 := w0) v.protocol (v :: vs) w0 w' _
      (fun u h => kind_protocol ((hu u h).2.trans (hu v (by simp)).2.symm)) hv (sent := []) (out := [])
      fun rest => ⟨none, .inl rfl, rfl⟩).1

/-- **C80 (router).** Goroutines share one client of a router, which nobody else uses meanwhile; any schedule, `Close` at
any time.  The calls return, in the order in which they return, what a single store of values would give one after the
other, up to the first one that fails because the connection was closed or a deadline passed. -/
theorem C80_router (hS : ShareRouter P H name r w0) (hr : TwoRings H name ps qs r) {t : Nat} (ht : ∀ s, (w0 s).now = t)
    (ha : Agree H r w0) {s : Sched.State T} (hreach : Sched.Reach P s) (hw : Healthy w0 (2 * s.log.length + 3)) :
    ∃ good bad, ∃ us : List Use, s.log = good ++ bad ∧ good.map (·.1) = us.map (·.call)
      ∧ good.map (·.2) = (runUses (onPrimaries H r t w0) (us.map fun u => (0, u))).1
      ∧ (∀ c x rest, bad = (c, x) :: rest → Sched.Fails x ∧ Sched.Trouble P s)
      ∧ (¬ (P.timeout = true ∧ P.late = true) → ∀ e ∈ bad, Sched.Fails e.2 ∨ refused e.1 e.2) := by
  have hon : Online P.resp := hS.resp ▸ online_server _ _
  obtain ⟨good, bad, h1, h2, h3, h4⟩ := Sched.C30_linear P hon hS.client s hreach
  obtain ⟨us, e1, e2⟩ := hS.turn hr ht ha (good.map (·.1)) (healthy_mono hw (by rw [h1]; simp; omega)) (by
    intro c hc
    obtain ⟨e, he, rfl⟩ := List.mem_map.1 hc
    exact Sched.log_known hreach e (by rw [h1]; exact List.mem_append_left _ he))
  exact ⟨good, bad, us, h1, e1, by rw [h2, e2], h3, h4⟩

/-- **C80 (router, all return).** If nobody closes the connection, all calls return. -/
theorem C80_router_return (hS : ShareRouter P H name r w0) (hr : TwoRings H name ps qs r) {t : Nat} (ht : ∀ s, (w0 s).now = t)
    (ha : Agree H r w0) (hcl : ∀ t, ¬ P.closers t) {s : Sched.State T} (hreach : Sched.Reach P s)
    (hw : Healthy w0 (2 * s.log.length + 3)) (hb : Blocked P s) : AllDone s := by
  have hon : Online P.resp := hS.resp ▸ online_server _ _
  refine Sched.C68_served P hon hS.client s hreach (Sched.unclosed hcl hreach).fine (fun c hc hio => ?_) hb
  obtain ⟨us, e1, e2⟩ := hS.turn hr ht ha (s.log.map (·.1) ++ [c]) (healthy_mono hw (by simp; omega)) (by
    intro d hd
    rcases List.mem_append.1 hd with hd | hd
    · obtain ⟨e, he, rfl⟩ := List.mem_map.1 hd
      exact Sched.log_known hreach e he
    · rw [List.mem_singleton.1 hd]; exact hc)
  rw [e2] at hio
  obtain ⟨o, ho⟩ := runUses_ok _ _ _ hio
  cases ho

/-- A router with two primaries and one secondary, used by two goroutines with one meta client. -/
def routerUsers : Sched.Params Bool where
  kind := .metap
  timeout := false
  late := false
  resp i := (serve (Props.router Pool.realHashes id abc) none empties i).out
  calls c := ∃ u : Use, u.Good ∧ u.kind = .metap ∧ c = u.call
  closers _ := False

theorem C80_router_concrete {s : Sched.State Bool} (hreach : Sched.Reach routerUsers s) (hl : s.log.length < 1000) :
    ∃ good bad, ∃ us : List Use, s.log = good ++ bad ∧ good.map (·.1) = us.map (·.call)
      ∧ good.map (·.2) = (runUses (onPrimaries Pool.realHashes abc 1000 empties) (us.map fun u => (0, u))).1
      ∧ (∀ c x rest, bad = (c, x) :: rest → Sched.Fails x ∧ Sched.Trouble routerUsers s) := by
  obtain ⟨good, bad, us, h1, h2, h3, h4, _⟩ := C80_router (P := routerUsers) (name := id) ⟨rfl, fun c h => h⟩ abc_rings
    (t := 1000) (fun _ => rfl) empties_agree hreach (empties_healthy _ (by omega))
  exact ⟨good, bad, us, h1, h2, h3, h4⟩

end Served
end Verif
