import Verif.Props.JointRun
/-!
C81: any number of clients of this module, each shared by goroutines, connected to one server of this module.
-/

namespace Verif
namespace Joint
open Srv Spec Props
open Accept (Conn Concurrent Run Atomic atomically)

variable {T : Type} [DecidableEq T] {σ : Type}
variable {P : Nat → Sched.Params T} {p : Nat → Proto} {A : Nat → Ask → Prop} {h : Handler σ} {I : σ → Prop} {s0 : σ}

/-! ### What the handler is called with -/

theorem done_prefix {q : State T (Atomic σ)} (hl : Later P (atomically h) (init (.init s0)) q) {c : Nat} {k : Conn}
    (hk : q.server.conns c = some k) : k.done <+: callsFrom c q.server.state.log :=
  ((C56_linear (server_run hl)).2 c k hk).1

theorem calls_requests {q : State T (Atomic σ)} (hl : Later P (atomically h) (init (.init s0)) q) (c : Nat) :
    (q.server.conns c = none ∧ callsFrom c q.server.state.log = []) ∨
    ∃ k, q.server.conns c = some k ∧ (callsFrom c q.server.state.log).map (·.1) <+: requests k := by
  have hs := slot_run (guarded_atomically h) (server_run hl) c
  cases hk : q.server.conns c with
  | none => rw [hk] at hs; exact .inl ⟨rfl, hs.2.2⟩
  | some k =>
    refine .inr ⟨k, rfl, ?_⟩
    rw [hk] at hs
    simp only [Slot] at hs
    show (logOf q.server.state c).map (·.1) <+: _
    unfold requests
    cases hb : k.busy with
    | none => rw [hb] at hs; rw [hs.2.2]; exact List.prefix_append _ _
    | some z =>
      obtain ⟨pr, req⟩ := z
      rw [hb] at hs
      rcases hs with ⟨_, _, h3⟩ | ⟨x, _, _, h3⟩
      · rw [h3]; exact List.prefix_append _ _
      · rw [h3]; simp

/-- Client `c` with the answers the handler has given it. -/
abbrev own (P : Nat → Sched.Params T) (c : Nat) (l : List (Request × Res (List Response))) : Sched.Params T :=
  { P c with resp := fun i => (serve script none l i).out }

/-- Each client by itself, whatever the handler. -/
theorem reach_any {τ : Type} {H : Concurrent τ} {s0 : τ} {q : State T τ} (hl : Later P H (init s0) q) (c : Nat) :
    ∃ l, Sched.Reach (own P c l) (q.users c) := by
  refine ⟨match q.server.conns c with | some k => k.done | none => [], alone hl c _ script _ fun k hk => ?_⟩
  rw [hk]
  refine ⟨[], ?_⟩
  have := gave_script k.done []
  rwa [List.append_nil] at this

theorem own_reach {q : State T (Atomic σ)} (hl : Later P (atomically h) (init (.init s0)) q) (c : Nat) :
    Sched.Reach (own P c (callsFrom c q.server.state.log)) (q.users c) := by
  refine alone hl c _ script _ fun k hk => ?_
  obtain ⟨l, hl⟩ := done_prefix hl hk
  rw [← hl]
  exact ⟨l, gave_script _ _⟩

theorem issued (hC : Clients P p A) {q : State T (Atomic σ)} (hl : Later P (atomically h) (init (.init s0)) q) (c : Nat) :
    ∃ is : List Issue, (∀ i ∈ is, A c i.ask) ∧ (q.users c).sent <+: wiresOf (is.map (Issue.use (p c))) := by
  obtain ⟨cs, h1, h2⟩ := sent_prefix (own_reach hl c)
  obtain ⟨is, h3, rfl⟩ := Served.issues_of cs fun x hx => hC.calls c x (h1 x hx)
  exact ⟨is, h3, h2⟩

theorem were_asked (hC : Clients P p A) (hf : ∀ c a, A c a → Spec.Fit (p c) a) {q : State T (Atomic σ)}
    (hl : Later P (atomically h) (init (.init s0)) q) (c : Nat) :
    ∃ is : List Issue, (∀ i ∈ is, A c i.ask) ∧
      (callsFrom c q.server.state.log).map (·.1) <+: is.flatMap fun i => asked (p c) i.ask := by
  rcases calls_requests hl c with ⟨_, h1⟩ | ⟨k, hk, h1⟩
  · exact ⟨[], by simp, by rw [h1]; exact List.prefix_refl _⟩
  · obtain ⟨is, hA, hp⟩ := issued hC hl c
    obtain ⟨more, hm⟩ := ((net_ok hl c k hk).1).trans hp
    have hr := reads_issues is (fun i hi => hf c _ (hA i hi)) none (.inl rfl)
    rw [← hm] at hr
    obtain ⟨todo, e, _⟩ := legible_run (server_run hl) (p c).wire k hk more _ hr
    exact ⟨is, hA, h1.trans ⟨todo, e.symm⟩⟩

theorem all_usable (hw : ∀ c, Courteous h (p c) I (A c)) : ∀ (l : List (Nat × Request × Res (List Response))) (s s' : σ), I s →
    (∀ e ∈ l, ∃ a, A e.1 a ∧ e.2.1 ∈ asked (p e.1) a) → Gave h s (l.map (·.2)) s' →
    I s' ∧ ∀ e ∈ l, ∃ rs, e.2.2 = .ok rs ∧ Usable (p e.1) e.2.1 rs := by
  intro l
  induction l with
  | nil => intro s s' hI _ hg; cases hg; exact ⟨hI, by simp⟩
  | cons e l ih =>
    intro s s' hI ha hg
    obtain ⟨c, req, x⟩ := e
    obtain ⟨a, hA, hreq⟩ := ha (c, req, x) (by simp)
    obtain ⟨_, hall⟩ := hw c s a hI hA
    obtain ⟨rs, h1, h2, h3⟩ := hall req hreq
    obtain ⟨hx, hg⟩ : (h s req).1 = x ∧ Gave h (h s req).2 (List.map (fun e : Nat × Request × Res (List Response) => e.2) l) s' := hg
    obtain ⟨e1, e2⟩ := ih _ s' h3 (fun y hy => ha y (by simp [hy])) hg
    refine ⟨e1, fun y hy => ?_⟩
    rcases List.mem_cons.1 hy with rfl | hy
    · exact ⟨rs, by rw [← hx]; exact h1, h2⟩
    · exact e2 y hy

theorem mem_callsFrom {c : Nat} {l : List (Nat × Request × Res (List Response))} {e : Request × Res (List Response)} :
    e ∈ callsFrom c l ↔ (c, e) ∈ l := by
  unfold callsFrom
  constructor
  · intro he
    obtain ⟨⟨d, y⟩, h1, rfl⟩ := List.mem_map.1 he
    have h2 := List.mem_filter.1 h1
    have h3 : d = c := by simpa using h2.2
    subst h3
    exact h2.1
  · intro he
    exact List.mem_map.2 ⟨(c, e), List.mem_filter.2 ⟨he, by simp⟩, rfl⟩

theorem fits (hw : ∀ c, Courteous h (p c) I (A c)) (hI : I s0) : ∀ c a, A c a → Spec.Fit (p c) a :=
  fun c a hA => (hw c s0 a hI hA).1

/-- Whatever the handler is called with, it answers well. -/
theorem handled_well (hC : Clients P p A) (hw : ∀ c, Courteous h (p c) I (A c)) (hI : I s0) {q : State T (Atomic σ)}
    (hl : Later P (atomically h) (init (.init s0)) q) :
    I q.server.state.own ∧ ∀ c, AllProper (p c) (callsFrom c q.server.state.log) := by
  have h0 := all_usable hw q.server.state.log s0 q.server.state.own hI (fun e he => ?_) (C56_linear (server_run hl)).1
  · refine ⟨h0.1, fun c e he => ?_⟩
    exact h0.2 _ (mem_callsFrom.1 he)
  · obtain ⟨c, e⟩ := e
    obtain ⟨is, hA, hp⟩ := were_asked hC (fits hw hI) hl c
    have hm := hp.subset (List.mem_map.2 ⟨e, mem_callsFrom.2 he, rfl⟩)
    obtain ⟨i, hi, hreq⟩ := List.mem_flatMap.1 hm
    exact ⟨i.ask, hA i hi, hreq⟩

/-! ### What becomes of the calls -/

theorem wires_ok (hC : Clients P p A) (hf : ∀ c a, A c a → Spec.Fit (p c) a) (c : Nat) : ∀ x, (P c).calls x → ∃ w, x.wire = .ok w := by
  intro x hx
  obtain ⟨i, hA, rfl⟩ := hC.calls c x hx
  obtain ⟨w, hw, _⟩ := reads_issue (hf c _ hA)
  exact ⟨w, hw⟩

theorem readers (hC : Clients P p A) (c : Nat) : ∀ x, (P c).calls x → Stable x.rd ∧ x.rd [] = (.err .io, []) := by
  intro x hx
  obtain ⟨i, _, rfl⟩ := hC.calls c x hx
  exact (Served.use_client (p c) i).reader

theorem own_fair (hC : Clients P p A) (hw : ∀ c, Courteous h (p c) I (A c)) (hI : I s0) {q : State T (Atomic σ)}
    (hl : Later P (atomically h) (init (.init s0)) q) (c : Nat) :
    Fair (own P c (callsFrom c q.server.state.log)) (q.users c) :=
  fair (P := own P c (callsFrom c q.server.state.log)) (Served.online_server script _) (readers hC c) (wires_ok hC (fits hw hI) c) (own_reach hl c)

/-- Calls that have results in a sequential run: what the handler has been called with. -/
theorem took (hC : Clients P p A) (hw : ∀ c, Courteous h (p c) I (A c)) (hI : I s0) {q : State T (Atomic σ)}
    (hl : Later P (atomically h) (init (.init s0)) q) (c : Nat) {good : List (Call Out × Res Out)}
    (hk : ∀ e ∈ good, (P c).calls e.1) (hg : Sched.Sequential (own P c (callsFrom c q.server.state.log)).resp good)
    (hio : ∀ e ∈ good, e.2 ≠ .err .io) :
    ∃ mine rest, callsFrom c q.server.state.log = mine ++ rest ∧ Resulted (p c) good mine
      ∧ ∃ out', Served.Has script (p c).wire (callsFrom c q.server.state.log) (wiresOf (good.map (·.1))) (mine.map (·.1)) out' rest := by
  obtain ⟨is, hA, he⟩ := Served.issues_of (good.map (·.1)) (fun x hx => by
    obtain ⟨e, he, rfl⟩ := List.mem_map.1 hx
    exact hC.calls c _ (hk e he))
  have hg : good.map (·.2) = oneByOne (fun i => (serve script none (callsFrom c q.server.state.log) i).out) [] [] (good.map (·.1)) := hg
  rw [he] at hg
  obtain ⟨mine, rest, rss, xs, out', e1, e2, e3, e4, e5, e6⟩ := turns is (fun i hi => fits hw hI c _ (hA i hi))
    ((handled_well hC hw hI hl).2 c) (Served.has_init script (p c).wire _) (fun hx => by
      rw [← hg] at hx
      obtain ⟨e, he, hx⟩ := List.mem_map.1 hx
      exact hio e he hx)
  refine ⟨mine, rest, e1, ⟨is, rss, xs, he, by rw [hg, e5], e2, e3, e4⟩, out', ?_⟩
  rw [he]
  simpa using e6

/-- **C81 (linear).** Any number of clients of this module, each shared by goroutines, connected to one server of this
module whose handler does one call at a time and answers the operations in use properly; any schedule, `Close` at any
time.  All the handler's calls, of all clients, have one order; in this order the answers are those it gives when called
with one request after the other.  The calls of each client return, in the order in which they return, what the handler's
answers to this client mean, and the handler is called for them in this order: up to the first one that fails, because
the connection was closed or a deadline passed; when no deadline passes all later ones of this client fail too. -/
theorem C81_linear (hC : Clients P p A) (hw : ∀ c, Courteous h (p c) I (A c)) (hI : I s0) {q : State T (Atomic σ)}
    (hl : Later P (atomically h) (init (.init s0)) q) :
    Gave h s0 (q.server.state.log.map (·.2)) q.server.state.own ∧ I q.server.state.own ∧
    ∀ c, ∃ good bad mine rest, (q.users c).log = good ++ bad ∧ callsFrom c q.server.state.log = mine ++ rest
      ∧ Resulted (p c) good mine
      ∧ (∀ x r more, bad = (x, r) :: more → Sched.Fails r ∧ Sched.Trouble (P c) (q.users c))
      ∧ (¬ ((P c).timeout = true ∧ (P c).late = true) → ∀ e ∈ bad, Sched.Fails e.2) := by
  refine ⟨(C56_linear (server_run hl)).1, (handled_well hC hw hI hl).1, fun c => ?_⟩
  have hr := own_reach hl c
  have hk := Sched.log_known hr
  rcases own_fair hC hw hI hl c with ⟨hf, _, hn⟩ | ⟨good, x, r, bad, h1, h2, h3, h4, h5, h6⟩
  · obtain ⟨mine, rest, e1, e2, _⟩ := took hC hw hI hl c hk hf.log hn
    exact ⟨_, [], mine, rest, by rw [List.append_nil], e1, e2, by simp, by simp⟩
  · obtain ⟨mine, rest, e1, e2, _⟩ := took hC hw hI hl c (fun e he => hk e (by rw [h1]; exact List.mem_append_left _ he)) h2 h5
    refine ⟨good, (x, r) :: bad, mine, rest, h1, e1, e2, ?_, fun hn e he => ?_⟩
    · intro x' r' more hm
      cases hm
      exact ⟨h3, h4⟩
    · rcases List.mem_cons.1 he with rfl | he
      · exact h3
      · rcases (h6 hn).1 e he with h | h
        · exact h
        · exfalso
          obtain ⟨w, hw⟩ := wires_ok hC (fits hw hI) c e.1 (hk e (by rw [h1]; simp [he]))
          revert h
          cases e.2 with
          | ok _ => exact id
          | err _ => intro h; have : e.1.wire = _ := h; rw [hw] at this; cases this
          | panic => intro h; have : e.1.wire = _ := h; rw [hw] at this; cases this

end Joint
end Verif
