import Verif.Props.JointFinite
import Verif.Props.ProgressUse
/-!
C81, continued: every run can be continued until all calls have returned; the hypotheses can be met.
-/

namespace Verif
namespace Joint
open Srv Spec Props
open Accept (Conn Concurrent Run Atomic atomically)

variable {T : Type} [DecidableEq T] {σ : Type}
variable {P : Nat → Sched.Params T} {p : Nat → Proto} {A : Nat → Ask → Prop} {h : Handler σ} {I : σ → Prop} {s0 : σ}

theorem movesOn_keeps {K : Concurrent σ} {q q' : State T σ} (hm : MovesOn P K q q') (c : Nat) :
    (q'.users c).ended = (q.users c).ended ∧
    ∀ k, q.server.conns c = some k → k.fin ≠ some .lost → ∃ k', q'.server.conns c = some k' ∧ k'.fin ≠ some .lost := by
  induction hm with
  | refl => exact ⟨rfl, fun k hk hf => ⟨k, hk, hf⟩⟩
  | @step v u _ hs ih =>
    obtain ⟨i1, i2⟩ := ih
    refine ⟨(hs.ended c).trans i1, fun k hk hf => ?_⟩
    obtain ⟨k', hk', hf'⟩ := i2 k hk hf
    have hex : ∃ k2, u.server.conns c = some k2 := by
      have hst := hs.step
      cases hst with
      | user d s' h => exact ⟨k', hk'⟩
      | server a w' h net =>
        obtain ⟨k2, h2, _⟩ := grew_step h hk'
        exact ⟨k2, h2⟩
    obtain ⟨k2, h2⟩ := hex
    refine ⟨k2, h2, fun hl => ?_⟩
    obtain ⟨k3, h3, h4⟩ := hs.lost c k2 h2 hl
    rw [hk'] at h3
    cases h3
    exact hf' h4

/-- **C81 (all calls can return).** Whatever has happened so far, the whole can go on, without new calls, to a moment when
all calls of every client have returned that nobody closes and whose connection the server has accepted and not lost; and
unless its deadlines can pass or the connection has ended, they all have results: the meaning of the handler's answers. -/
theorem C81_to_the_end (hC : Clients P p A) (hw : ∀ c, Courteous h (p c) I (A c)) (hI : I s0) {q : State T (Atomic σ)}
    (hl : Later P (atomically h) (init (.init s0)) q) :
    ∃ q', MovesOn P (atomically h) q q' ∧ Rests P (atomically h) q' ∧
      ∀ c, (∀ t, ¬ (P c).closers t) → (∃ k, q.server.conns c = some k ∧ k.fin ≠ some .lost) →
        AllDone (q'.users c) ∧ ((q.users c).ended = false → ¬ ((P c).timeout = true ∧ (P c).late = true) →
          Resulted (p c) (q'.users c).log (callsFrom c q'.server.state.log)) := by
  obtain ⟨q', h1, h2⟩ := C81_run_on hl
  refine ⟨q', h1, h2, fun c hcl hacc => ?_⟩
  obtain ⟨k, hk, hf⟩ := hacc
  obtain ⟨e1, e2⟩ := movesOn_keeps h1 c
  obtain ⟨k', hk', hf'⟩ := e2 k hk hf
  have hl' := hl.trans h1.later
  have hun := Sched.unclosed (P := own P c (callsFrom c q'.server.state.log)) hcl (own_reach hl' c)
  obtain ⟨d1, d2⟩ := C81_return hC hw hI hl' h2 c hun.fine fun _ _ _ => ⟨k', hk', hf'⟩
  refine ⟨d1, fun hen hto => d2 ?_⟩
  rintro (ht | ht | ht)
  · rw [hun.isOpen] at ht; cases ht
  · rw [e1, hen] at ht; cases ht
  · exact hto ht

/-! ### The hypotheses can be met -/

theorem polite_courteous (p : Proto) : Courteous polite p (fun _ => True) (Fit p) := by
  intro s a _ fit
  refine ⟨fit, fun req hreq => ?_⟩
  have hit : TextHit { key := b!"k", value := b!"END\r\n", flags := [0, 0, 0, 1] } := ⟨polite_k, by decide, by decide, by decide⟩
  have ver : (10 : UInt8) ∉ b!"1.0" ∧ b!"1.0".length ≤ 4000 ∧ hasPrefix (b!"1.0" ++ crlf) b!"VERSION " = false := by decide
  have num7 : ∃ n < 2 ^ 63, natDec 7 = natDec n := ⟨7, by decide, rfl⟩
  have one : ∀ req0, req ∈ [req0] → (∃ rs, (polite s req0).1 = .ok rs ∧ Usable p req0 rs ∧ True) →
      ∃ rs, (polite s req).1 = .ok rs ∧ Usable p req rs ∧ True := by
    intro req0 h1 h2
    cases List.mem_singleton.1 h1
    exact h2
  cases p with
  | text name =>
    cases a with
    | version => exact one _ hreq ⟨_, rfl, ⟨_, _, rfl, rfl, (fun h => by cases h), ver⟩, trivial⟩
    | op o =>
      cases o with
      | get k => exact one _ hreq ⟨_, rfl, ⟨fun r hr => by cases List.mem_singleton.1 hr; exact hit, fun _ _ => Nat.le_refl _⟩, trivial⟩
      | getMulti ks => exact one _ hreq ⟨_, rfl, ⟨fun r hr => by cases List.mem_singleton.1 hr; exact hit, fun _ _ => Nat.le_refl _⟩, trivial⟩
      | increment k d e => exact one _ hreq ⟨_, rfl, ⟨_, _, rfl, rfl, (fun h => by cases h), num7⟩, trivial⟩
      | decrement k d e => exact one _ hreq ⟨_, rfl, ⟨_, _, rfl, rfl, (fun h => by cases h), num7⟩, trivial⟩
      | _ => exact one _ hreq ⟨_, rfl, ⟨_, _, rfl, rfl, (fun h => by cases h), (fun h => by cases h)⟩, trivial⟩
  | metap =>
    cases a with
    | version => exact one _ hreq ⟨_, rfl, ⟨_, _, rfl, rfl, (fun h => by cases h), ver⟩, trivial⟩
    | op o =>
      cases o with
      | get k => exact one _ hreq ⟨_, rfl, ⟨Nat.le_refl _, fun r hr => by cases List.mem_singleton.1 hr; decide⟩, trivial⟩
      | getMulti ks => exact fit.elim
      | touch k e => exact fit.elim
      | increment k d e => exact one _ hreq ⟨_, rfl, ⟨_, _, rfl, rfl, (fun h => by cases h), num7⟩, trivial⟩
      | decrement k d e => exact one _ hreq ⟨_, rfl, ⟨_, _, rfl, rfl, (fun h => by cases h), num7⟩, trivial⟩
      | _ => exact one _ hreq ⟨_, rfl, ⟨_, _, rfl, rfl, (fun h => by cases h), (fun h => by cases h)⟩, trivial⟩
  | binary =>
    have found : BinFound { key := b!"k", value := b!"END\r\n", flags := [0, 0, 0, 1] } := ⟨by decide, by decide, by decide⟩
    have num8 : ∃ n < 2 ^ 63, putBE 8 7 = putBE 8 n := ⟨7, by decide, rfl⟩
    cases a with
    | version => exact one _ hreq ⟨_, rfl, ⟨_, _, rfl, rfl, (fun _ => ⟨rfl, rfl⟩), (by decide)⟩, trivial⟩
    | op o =>
      cases o with
      | get k =>
        exact one _ hreq ⟨_, rfl, ⟨Nat.le_refl _, fun r hr => by cases List.mem_singleton.1 hr; exact found, fun _ => by simp⟩, trivial⟩
      | getMulti ks =>
        rcases List.mem_append.1 hreq with h1 | h1
        · obtain ⟨k, _, rfl⟩ := List.mem_map.1 h1
          exact ⟨_, rfl, ⟨Nat.le_refl _, fun r hr => by cases List.mem_singleton.1 hr; exact found, fun _ => by simp⟩, trivial⟩
        · exact one _ h1 ⟨_, rfl, ⟨_, _, rfl, rfl, (fun _ => ⟨rfl, rfl⟩), (fun _ => rfl)⟩, trivial⟩
      | increment k d e => exact one _ hreq ⟨_, rfl, ⟨_, _, rfl, rfl, (fun _ => ⟨rfl, rfl⟩), num8⟩, trivial⟩
      | decrement k d e => exact one _ hreq ⟨_, rfl, ⟨_, _, rfl, rfl, (fun _ => ⟨rfl, rfl⟩), num8⟩, trivial⟩
      | _ => exact one _ hreq ⟨_, rfl, ⟨_, _, rfl, rfl, (fun _ => ⟨rfl, rfl⟩), (fun _ => rfl)⟩, trivial⟩

/-- Clients of all three protocols. (Example.) -/
def mixed (c : Nat) : Proto := if c % 3 = 0 then .text b!"srv" else if c % 3 = 1 then .metap else .binary

/-- Two goroutines at each of them. (Example.) -/
def mixedUsers (c : Nat) : Sched.Params Bool where
  kind := (mixed c).kind
  timeout := false
  late := false
  resp _ := []
  calls x := ∃ i : Issue, Fit (mixed c) i.ask ∧ x = i.use (mixed c)
  closers _ := False

theorem mixed_clients : Clients mixedUsers mixed (fun c => Fit (mixed c)) := ⟨fun _ => rfl, fun _ _ h => h⟩

/-- The server has accepted the connections of a text and of a binary client; a goroutine of each has begun a call and
holds the mutex. -/
theorem mixed_run {x y : Call Out} (hx : (mixedUsers 0).calls x) (hy : (mixedUsers 2).calls y) :
    ∃ q : State Bool (Atomic Nat), Later mixedUsers (atomically polite) (init (.init 0)) q
      ∧ (q.users 0).lock = some true ∧ ((q.users 0).pc true).op = some x
      ∧ (q.users 2).lock = some false ∧ ((q.users 2).pc false).op = some y
      ∧ (∀ c, (q.users c).ended = false ∧ (q.users c).log = [])
      ∧ ∀ c, c = 0 ∨ c = 2 → q.server.conns c = some .new := by
  have l1 : Later mixedUsers (atomically polite) (init (.init 0)) _ := .step .refl
    (.server _ _ _ (.accept _ 0 rfl rfl rfl) (by
      intro c k hk
      have hk : (if c = 0 then some Conn.new else none) = some k := hk
      split at hk
      · cases hk; exact ⟨List.prefix_refl _, fun h => by cases h⟩
      · cases hk))
  have l2 := l1.step (.server _ _ _ (.accept _ 2 rfl rfl rfl) (by
      intro c k hk
      have hk : (if c = 2 then some Conn.new else if c = 0 then some Conn.new else none) = some k := hk
      split at hk
      · cases hk; exact ⟨List.prefix_refl _, fun h => by cases h⟩
      · split at hk
        · cases hk; exact ⟨List.prefix_refl _, fun h => by cases h⟩
        · cases hk))
  have l3 := l2.step (.user _ 0 _ (.call _ true x rfl hx))
  have l4 := l3.step (.user _ 2 _ (.call _ false y rfl hy))
  have l5 := l4.step (.user _ 0 _ (.lock _ true x rfl rfl))
  have l6 := l5.step (.user _ 2 _ (.lock _ false y rfl rfl))
  refine ⟨_, l6, rfl, rfl, rfl, rfl, fun c => ?_, fun c hc => ?_⟩
  · by_cases h2 : c = 2
    · subst h2; exact ⟨rfl, rfl⟩
    · by_cases h0 : c = 0
      · subst h0; exact ⟨rfl, rfl⟩
      · simp only [h2, h0, if_false]
        exact ⟨rfl, rfl⟩
  · rcases hc with rfl | rfl <;> rfl

/-- A text client that gets a key while a binary client increments a counter: both calls can return, with results. -/
theorem C81_concrete {x y : Call Out} (hx : (mixedUsers 0).calls x) (hy : (mixedUsers 2).calls y) :
    ∃ q q' : State Bool (Atomic Nat), Later mixedUsers (atomically polite) (init (.init 0)) q
      ∧ MovesOn mixedUsers (atomically polite) q q' ∧ Rests mixedUsers (atomically polite) q'
      ∧ (∃ r more, (q'.users 0).log = (x, r) :: more) ∧ (∃ r more, (q'.users 2).log = (y, r) :: more)
      ∧ Resulted (.text b!"srv") (q'.users 0).log (callsFrom 0 q'.server.state.log)
      ∧ Resulted .binary (q'.users 2).log (callsFrom 2 q'.server.state.log) := by
  obtain ⟨q, hl, a1, a2, b1, b2, hq, hacc⟩ := mixed_run hx hy
  obtain ⟨q', h1, h2, h3⟩ := C81_to_the_end mixed_clients (fun c => polite_courteous (mixed c)) trivial hl
  obtain ⟨d0, t0⟩ := h3 0 (fun _ h => h) ⟨_, hacc 0 (.inl rfl), by simp [Conn.new]⟩
  obtain ⟨d2, t2⟩ := h3 2 (fun _ h => h) ⟨_, hacc 2 (.inr rfl), by simp [Conn.new]⟩
  refine ⟨q, q', hl, h1, h2, ?_, ?_, t0 (hq 0).1 (fun h => by cases h.1), t2 (hq 2).1 (fun h => by cases h.1)⟩
  · rcases C81_next hl h1.later a1 a2 with ⟨_, e, _⟩ | ⟨r, more, e⟩
    · rw [d0 true] at e; cases e
    · exact ⟨r, more, by rw [e, (hq 0).2]; rfl⟩
  · rcases C81_next hl h1.later b1 b2 with ⟨_, e, _⟩ | ⟨r, more, e⟩
    · rw [d2 false] at e; cases e
    · exact ⟨r, more, by rw [e, (hq 2).2]; rfl⟩

/-- With these calls. -/
example : (mixedUsers 0).calls (Issue.use (mixed 0) ⟨.op (.get b!"a"), {}, {}⟩) ∧
    (mixedUsers 2).calls (Issue.use (mixed 2) ⟨.op (.increment b!"n" 3 0), {}, {}⟩) := by
  refine ⟨⟨_, ?_, rfl⟩, ⟨_, ?_, rfl⟩⟩
  · show Plain b!"a"
    exact ⟨by decide, by decide⟩
  · show _ ∧ _
    exact ⟨by decide, by decide⟩

end Joint
end Verif
