import Verif.Props.JointRouterRest
import Verif.Props.JointUse
/-!
C83 applied: clients of all kinds and a router with two primaries and one secondary.
-/

namespace Verif
namespace Joint
open Srv Srv.Accept Spec Props
open Proxy (Desk process)

/-- Every third client speaks the text protocol, every third the meta and every third the binary one; each is used by two
goroutines. -/
def routerMix (c : Nat) : Sched.Params Bool where
  kind := if c % 3 = 0 then .text else if c % 3 = 1 then .metap else .binary
  timeout := false
  late := false
  resp _ := []
  calls x := ∃ u : Use, u.Good ∧ u.kind = (if c % 3 = 0 then .text else if c % 3 = 1 then .metap else .binary) ∧ x = u.call
  closers _ := False

theorem routerMix_clients : RouterClients routerMix := fun _ _ h => h

/-- Whatever they do, as long as the router has made less than a thousand million calls on its memcached servers, empty at
first: there is one order. -/
theorem C83_concrete {q q' : State Bool (Desk Bytes)}
    (hl : Later routerMix (process Pool.realHashes abc) (init (Desk.init empties)) q)
    (hl' : Later routerMix (process Pool.realHashes abc) q q') (hn : q'.server.state.calls < 1000000000) :
    ∃ order late, Accounts routerMix (onPrimaries Pool.realHashes abc 1000 empties) q.users order
      ∧ Accounts routerMix (onPrimaries Pool.realHashes abc 1000 empties) q'.users (order ++ late) := by
  obtain ⟨order, late, h1, h2, _⟩ := C83_real_time routerMix_clients abc_rings (t := 1000) (fun _ => rfl) hl hl'
    (empties_healthy _ (by omega))
  exact ⟨order, late, h1, h2⟩

/-- A text client in the middle of Set and a binary client in the middle of Get. -/
theorem routerMix_run {x y : Call Out} (hx : (routerMix 0).calls x) (hy : (routerMix 2).calls y) :
    ∃ q : State Bool (Desk Bytes), Later routerMix (process Pool.realHashes abc) (init (Desk.init empties)) q
      ∧ (q.users 0).lock = some true ∧ ((q.users 0).pc true).op = some x
      ∧ (q.users 2).lock = some false ∧ ((q.users 2).pc false).op = some y
      ∧ (∀ c, (q.users c).ended = false ∧ (q.users c).log = [] ∧ (q.users c).isOpen = true ∧ (q.users c).crashed = false)
      ∧ (∀ c, c = 0 ∨ c = 2 → q.server.conns c = some .new) ∧ (q.server.state.calls = 0 ∧ ∀ c, q.server.state.tasks c = none)
      ∧ Within Modest deskOwes [0, 2] (fun c => if c = 0 then [true] else if c = 2 then [false] else []) q
      ∧ (Sched.todo [true] (q.users 0) = 5 + Sched.wireLen x ∧ (q.users 0).sent = [])
      ∧ (Sched.todo [false] (q.users 2) = 5 + Sched.wireLen y ∧ (q.users 2).sent = []) := by
  have l1 : Later routerMix (process Pool.realHashes abc) (init (Desk.init empties)) _ := .step .refl
    (.server _ _ _ (.accept _ 0 rfl rfl rfl) (by
      intro c k hk
      have hk : (if c = 0 then some Conn.new else none) = some k := hk
      split at hk
      · cases hk; exact ⟨List.prefix_refl _, fun h => by cases h⟩
      · cases hk))
  have l2 := l1.step (.server _ _ _ (.accept _ 2 rfl rfl rfl) (by
      intro c k hk
      have hk : (if c = 2 then some Conn.new else if c = 0 then some Conn.new else none) = some k := hk
      split at hk
      · cases hk; exact ⟨List.prefix_refl _, fun h => by cases h⟩
      · split at hk
        · cases hk; exact ⟨List.prefix_refl _, fun h => by cases h⟩
        · cases hk))
  have l3 := l2.step (.user _ 0 _ (.call _ true x rfl hx))
  have l4 := l3.step (.user _ 2 _ (.call _ false y rfl hy))
  have l5 := l4.step (.user _ 0 _ (.lock _ true x rfl rfl))
  have l6 := l5.step (.user _ 2 _ (.lock _ false y rfl rfl))
  refine ⟨_, l6, rfl, rfl, rfl, rfl, fun c => ?_, fun c hc => ?_, ⟨rfl, fun _ => rfl⟩, ⟨fun c hc => ?_, fun c hc => ?_, fun c t h => ?_, fun c _ => rfl, fun c => ?_⟩,
    ⟨?_, rfl⟩, ⟨?_, rfl⟩⟩
  · by_cases h2 : c = 2
    · subst h2; exact ⟨rfl, rfl, rfl, rfl⟩
    · by_cases h0 : c = 0
      · subst h0; exact ⟨rfl, rfl, rfl, rfl⟩
      · simp only [h2, h0, if_false]
        exact ⟨rfl, rfl, rfl, rfl⟩
  · rcases hc with rfl | rfl <;> rfl
  · have h2 : c ≠ 2 := fun h => hc (by simp [h])
    have h0 : c ≠ 0 := fun h => hc (by simp [h])
    simp only [h2, h0, if_false]
    rfl
  · have h2 : c ≠ 2 := fun h => hc (by simp [h])
    have h0 : c ≠ 0 := fun h => hc (by simp [h])
    show (if c = 2 then some Conn.new else if c = 0 then some Conn.new else none) = none
    rw [if_neg h2, if_neg h0]
  · cases h
  · by_cases h2 : c = 2
    · subst h2
      intro t ht
      cases t with
      | false => simp
      | true => exact absurd rfl ht
    · by_cases h0 : c = 0
      · subst h0
        intro t ht
        cases t with
        | true => simp
        | false => exact absurd rfl ht
      · intro t ht
        simp only [h2, h0, if_false] at ht
        exact absurd rfl ht
  · show 5 + Sched.wireLen x + 0 = _
    rfl
  · show 5 + Sched.wireLen y + 0 = _
    rfl

/-- A text client stores a value while a binary client gets it: both calls return, with the results they have one after
the other. -/
theorem C83_concrete_end {x y : Call Out} (hx : (routerMix 0).calls x) (hy : (routerMix 2).calls y)
    (hlen : Sched.wireLen x + Sched.wireLen y < 1000000000) :
    ∃ q q' : State Bool (Desk Bytes), Later routerMix (process Pool.realHashes abc) (init (Desk.init empties)) q
      ∧ RouterMovesOn routerMix Pool.realHashes abc q q' ∧ RouterRests routerMix Pool.realHashes abc q'
      ∧ (∃ r more, (q'.users 0).log = (x, r) :: more) ∧ (∃ r more, (q'.users 2).log = (y, r) :: more)
      ∧ ∃ order, ofClient 0 (played (onPrimaries Pool.realHashes abc 1000 empties) order) = (q'.users 0).log
        ∧ ofClient 2 (played (onPrimaries Pool.realHashes abc 1000 empties) order) = (q'.users 2).log := by
  obtain ⟨q, hl, a1, a2, b1, b2, hq, hacc, ⟨hcalls, htasks⟩, hwith, ⟨c1, c2⟩, c3, c4⟩ := routerMix_run hx hy
  obtain ⟨q', h1, h2, h3⟩ := C83_to_the_end routerMix_clients abc_rings (t := 1000) (fun _ => rfl) hl
  obtain ⟨_, hb, _⟩ := calls_bound hwith h1
  have howed : ∀ c u, c = 0 ∨ c = 2 → owed deskOwes q.server c u = 5 * u + 2 := by
    intro c u hc
    unfold owed deskOwes
    rw [hacc c hc, htasks c]
    simp [Conn.new]
  have hcap : q'.server.state.calls < 2 ^ 62 := by
    simp only [List.map_cons, List.map_nil, List.sum_cons, List.sum_nil] at hb
    rw [howed 0 _ (.inl rfl), howed 2 _ (.inr rfl), hcalls] at hb
    simp only [if_true, show (2 : Nat) ≠ 0 by decide, if_false] at hb
    rw [c1, c2, c3, c4] at hb
    simp only [List.length_nil] at hb
    omega
  have hh := empties_healthy q'.server.state.calls hcap
  obtain ⟨order, _, _, h4⟩ := h3 hh
  obtain ⟨d0, t0⟩ := h4 0 (fun _ h => h) ⟨_, hacc 0 (.inl rfl), by simp [Conn.new]⟩
  obtain ⟨d2, t2⟩ := h4 2 (fun _ h => h) ⟨_, hacc 2 (.inr rfl), by simp [Conn.new]⟩
  obtain ⟨ds, a, a', l1, l2, _⟩ := two_moments routerMix_clients abc_rings (t := 1000) (fun _ => rfl) hl h1.later hh
  refine ⟨q, q', hl, h1, h2, ?_, ?_, order, t0 (hq 0).1 (fun h => by cases h.1), t2 (hq 2).1 (fun h => by cases h.1)⟩
  · rcases C81_next l1 l2 (c := 0) a1 a2 with ⟨_, e, _⟩ | ⟨r, more, e⟩
    · have e : ((q'.users 0).pc true).op = some x := e
      rw [d0 true] at e; cases e
    · have e : (q'.users 0).log = (q.users 0).log ++ (x, r) :: more := e
      exact ⟨r, more, by rw [e, (hq 0).2.1]; rfl⟩
  · rcases C81_next l1 l2 (c := 2) b1 b2 with ⟨_, e, _⟩ | ⟨r, more, e⟩
    · have e : ((q'.users 2).pc false).op = some y := e
      rw [d2 false] at e; cases e
    · have e : (q'.users 2).log = (q.users 2).log ++ (y, r) :: more := e
      exact ⟨r, more, by rw [e, (hq 2).2.1]; rfl⟩

/-- With these calls. -/
example : (routerMix 0).calls (Use.textSet { key := b!"a", value := b!"1" }).call ∧ (routerMix 2).calls (Use.binGet {} b!"a").call
    ∧ Sched.wireLen (Use.textSet { key := b!"a", value := b!"1" }).call + Sched.wireLen (Use.binGet {} b!"a").call < 1000000000 := by
  refine ⟨⟨_, ?_, rfl, rfl⟩, ⟨_, ?_, rfl, rfl⟩, by decide +kernel⟩
  · exact ⟨⟨⟨by decide, by decide, by decide, by decide⟩, by simp⟩, rfl⟩
  · show Spec.Key _
    decide

end Joint
end Verif
