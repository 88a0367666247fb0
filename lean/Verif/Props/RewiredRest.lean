import Verif.Props.RewiredUse
import Verif.Props.WiredBreakRest
/-!
C86, continued: methods and Reconnect return.
-/

namespace Verif
namespace Rewired
open Kv Spec Mc Pool Cluster
open Wired (Setup Ev Sim2 Readers Clients load Lower)
open Reconn (Excl Gen Tidy)

variable {S M : Type} [DecidableEq S]

/-- How far Reconnect is from its end. -/
def rank : Reconn.At → Nat
  | .user _ => 0
  | .setConn _ => 1
  | .setRaw _ => 2
  | .dial => 3
  | .locked => 4
  | .called => 5

theorem rank_zero {a : Reconn.At} : rank a = 0 ↔ ∃ b, a = .user b := by
  cases a <;> simp [rank]

variable {U : Setup S M}

theorem raw_of_inside {l : Line} (h : LineInv l) {t : Nat} {a : Sched.At} (hp : l.conn.pc t = .user a) (hi : (Reconn.At.user a).inside = true) :
    l.conn.raw ≠ none := by
  intro e
  have hq : ∀ u, (l.conn.pc u).placed = none := by
    intro u
    cases hu : (l.conn.pc u).placed with
    | none => rfl
    | some g =>
      have := h.excl.one (t := t) (by rw [hp]; exact hi) (Reconn.At.inside_of_past (Reconn.At.past_of_placed hu))
      rw [this, hp] at hu; cases hu
  rw [h.tidy.inUse hq] at e; cases e

/-- While a goroutine is in Reconnect with the mutex, no operation is talking. -/
theorem none_talks {l : Line} (h : LineInv l) {t : Nat} (ht : (l.conn.pc t).inside = true) (h0 : (l.conn.pc t).ofOp = .idle) (u : Nat) :
    ((view l.conn).pc u).talking = none := by
  cases hu : ((view l.conn).pc u).talking with
  | none => rfl
  | some z =>
    have hi : ((l.conn.pc u).ofOp).inside = true := Sched.At.inside_of_talking (by show ((view l.conn).pc u).talking ≠ none; rw [hu]; simp)
    have := h.excl.one (t := u) (inside_ofOp hi) ht
    rw [show (view l.conn).pc u = (l.conn.pc u).ofOp from rfl, ← this, h0] at hu
    cases hu

theorem none_talks_free {l : Line} (h : LineInv l) (hl : l.conn.lock = none) (u : Nat) : ((view l.conn).pc u).talking = none := by
  cases hu : ((view l.conn).pc u).talking with
  | none => rfl
  | some z =>
    have hi : ((l.conn.pc u).ofOp).inside = true := Sched.At.inside_of_talking (by show ((view l.conn).pc u).talking ≠ none; rw [hu]; simp)
    have := (h.excl u).1 (inside_ofOp hi)
    rw [hl] at this; cases this

/-- Work on a client: an operation gets on, or Reconnect does. -/
theorem work_view {s : S} {l : Line} {c' : Reconn.State Nat} (h : LineInv l) (hs : Reconn.Step (params U s l.out) l.conn c')
    (ho : ∀ i, opOf (c'.pc i) = opOf (l.conn.pc i)) (hne : c' ≠ l.conn)
    (hr : ∀ t, (∀ a, c'.pc t ≠ .user a) → ∀ a, l.conn.pc t ≠ .user a)
    (he : ∀ g, (c'.conns g).ended = (l.conn.conns g).ended) :
    (Sched.Step (U.params s (l.out l.conn.conn)) (view l.conn) (view c') ∧ view c' ≠ view l.conn ∧ c'.conn = l.conn.conn
        ∧ (view c').ended = (view l.conn).ended ∧ ∀ t, rank (c'.pc t) = rank (l.conn.pc t))
      ∨ ∃ t, rank (c'.pc t) < rank (l.conn.pc t) ∧ (∀ u, u ≠ t → c'.pc u = l.conn.pc u) ∧ (c'.pc t).ofOp = (l.conn.pc t).ofOp
        ∧ ∀ u, ((view l.conn).pc u).talking = none := by
  obtain ⟨-, -, turn⟩ := line_step h hs
  have bad : ∀ {t}, (l.conn.pc t).closing = true → False := fun {t} hc => by rw [h.tidy.closing t] at hc; cases hc
  -- an operation gets on
  have core : view c' ≠ view l.conn → c'.conn = l.conn.conn → (c'.cur).isOpen = (l.conn.cur).isOpen → (∀ t, rank (c'.pc t) = rank (l.conn.pc t)) →
      (Sched.Step (U.params s (l.out l.conn.conn)) (view l.conn) (view c') ∧ view c' ≠ view l.conn ∧ c'.conn = l.conn.conn
        ∧ (view c').ended = (view l.conn).ended ∧ ∀ t, rank (c'.pc t) = rank (l.conn.pc t)) := by
    intro h1 h2 h3 h4
    refine ⟨?_, h1, h2, ?_, h4⟩
    · cases turn with
      | step g1 g2 => exact g1
      | still g1 g2 => exact absurd g1 h1
      | turns t g g1 g2 =>
        obtain ⟨g3, -⟩ := h.gen.next t g (by rw [g1]; rfl)
        rw [g2] at h2
        have h2 : g = l.conn.conn := h2
        omega
    · show (c'.cur.ended || !c'.cur.isOpen) = (l.conn.cur.ended || !l.conn.cur.isOpen)
      rw [h3, show c'.cur.ended = l.conn.cur.ended by show (c'.conns c'.conn).ended = _; rw [he, h2]; rfl]
  have moves : ∀ {t : Nat} {a b : Sched.At}, l.conn.pc t = .user b → c'.pc = (l.conn.goto t (.user a)).pc → c'.conn = l.conn.conn →
      (c'.cur).isOpen = (l.conn.cur).isOpen → view c' ≠ view l.conn →
      (Sched.Step (U.params s (l.out l.conn.conn)) (view l.conn) (view c') ∧ view c' ≠ view l.conn ∧ c'.conn = l.conn.conn
        ∧ (view c').ended = (view l.conn).ended ∧ ∀ t, rank (c'.pc t) = rank (l.conn.pc t)) := by
    intro t a b h1 h2 h3 h4 h5
    refine core h5 h3 h4 fun u => ?_
    rw [h2]
    show rank (if u = t then .user a else l.conn.pc u) = _
    by_cases e : u = t
    · rw [if_pos e, e, h1]; rfl
    · rw [if_neg e]
  have other : ∀ {t : Nat} {a b : Sched.At}, l.conn.pc t = .user b → (Reconn.At.user a).closing = false → (Reconn.At.user b).closing = false → a ≠ b →
      c'.pc = (l.conn.goto t (.user a)).pc → view c' ≠ view l.conn := by
    intro t a b h1 h2 h2' h3 h4 e
    have := congrArg (fun v => v.pc t) e
    have this : (c'.pc t).ofOp = (l.conn.pc t).ofOp := this
    rw [h4, h1] at this
    have this : Reconn.At.ofOp (if t = t then .user a else l.conn.pc t) = _ := this
    rw [if_pos rfl, ofOp_user h2, ofOp_user h2'] at this
    exact h3 this
  -- Reconnect gets on
  have recon : ∀ {t : Nat} {a : Reconn.At}, c'.pc = (l.conn.goto t a).pc → rank a < rank (l.conn.pc t) → a.ofOp = .idle → (l.conn.pc t).ofOp = .idle →
      (∀ u, ((view l.conn).pc u).talking = none) →
      ∃ t, rank (c'.pc t) < rank (l.conn.pc t) ∧ (∀ u, u ≠ t → c'.pc u = l.conn.pc u) ∧ (c'.pc t).ofOp = (l.conn.pc t).ofOp
        ∧ ∀ u, ((view l.conn).pc u).talking = none := by
    intro t a h1 h2 h3 h4 h5
    have h6 : c'.pc t = a := by rw [h1]; exact if_pos rfl
    exact ⟨t, by rw [h6]; exact h2, fun u hu => by rw [h1]; exact if_neg hu, by rw [h6, h3, h4], h5⟩
  have gone : ∀ {t : Nat} {b : Sched.At} {c : Call Out}, l.conn.pc t = .user b → b.op = some c → c'.pc t = .user .idle → False := by
    intro t b c h1 h2 h3
    have := ho t
    rw [h1, h3] at this
    have this : (none : Option (Call Out)) = b.op := this
    rw [h2] at this
    cases this
  have set : ∀ {c : Reconn.State Nat} {v : Reconn.Conn}, c.conn = l.conn.conn → (c.setConn l.conn.conn v).cur = v := fun {c v} e => by rw [← e]; exact cur_set c v
  cases hs with
  | call t c h1 h2 =>
    have := ho t
    rw [h1] at this
    have this : opOf (if t = t then .user (.called c) else l.conn.pc t) = none := this
    rw [if_pos rfl] at this
    cases this
  | lock t c h1 h2 => exact .inl (moves h1 rfl rfl rfl (other (a := .locked c) h1 rfl rfl nofun rfl))
  | refuse t c h1 h2 h3 => exact absurd h3 (raw_of_inside h h1 rfl)
  | pass t c h1 h2 => exact .inl (moves h1 rfl rfl rfl (other (a := .writeDeadline c) h1 rfl rfl nofun rfl))
  | writeDeadlineNil t c h1 h2 h3 => exact absurd h3 (raw_of_inside h h1 rfl)
  | writeDeadline t c h1 h2 h3 => exact .inl (moves h1 rfl rfl rfl (other (a := .readDeadline c) h1 rfl rfl nofun rfl))
  | readDeadlineNil t c h1 h2 => exact absurd h2 (raw_of_inside h h1 rfl)
  | readDeadline t c w h1 h2 h3 => exact .inl (moves h1 rfl rfl rfl (other (a := .writing c w) h1 rfl rfl nofun rfl))
  | noDeadline t c w h1 h2 h3 => exact .inl (moves h1 rfl rfl rfl (other (a := .writing c w) h1 rfl rfl nofun rfl))
  | unencodable t c e h1 h2 =>
    rcases h1 with ⟨h1, -⟩ | ⟨h1, -⟩
    · exact (gone h1 rfl (if_pos rfl)).elim
    · exact (gone h1 rfl (if_pos rfl)).elim
  | unencodablePanic t c h1 h2 =>
    rcases h1 with ⟨h1, -⟩ | ⟨h1, -⟩
    · exact (gone h1 rfl (if_pos rfl)).elim
    · exact (gone h1 rfl (if_pos rfl)).elim
  | write t c x y h1 h2 h3 =>
    refine .inl (moves (a := .writing c y) h1 rfl rfl (by rw [set (c := l.conn.goto t _) rfl]) fun e => ?_)
    have e2 := congrArg (fun v => v.sent.length) e
    have e2 : ((((l.conn.goto t (.user (.writing c y))).setConn l.conn.conn { l.conn.cur with sent := l.conn.cur.sent ++ x }).cur).sent).length = l.conn.cur.sent.length := e2
    rw [set (c := l.conn.goto t _) rfl] at e2
    simp only [List.length_append] at e2
    have hx : x = [] := List.length_eq_zero_iff.1 (by omega)
    subst hx
    apply hne
    rw [List.append_nil]
    show ({ l.conn with pc := _, conns := _ } : Reconn.State Nat) = l.conn
    have e3 : (fun u => if u = t then .user (.writing c y) else l.conn.pc u) = l.conn.pc := by
      funext u
      by_cases hu : u = t
      · rw [if_pos hu, hu, h1]; rfl
      · rw [if_neg hu]
    have e4 : (fun g => if g = l.conn.conn then l.conn.cur else l.conn.conns g) = l.conn.conns := by
      funext g
      by_cases hg : g = l.conn.conn
      · rw [if_pos hg, hg]; rfl
      · rw [if_neg hg]
    show ({ l.conn with pc := fun u => if u = t then .user (.writing c y) else l.conn.pc u, conns := fun g => if g = l.conn.conn then l.conn.cur else l.conn.conns g } : Reconn.State Nat) = l.conn
    rw [e3, e4]
  | writeFails t c x h1 h2 => exact (gone h1 rfl (if_pos rfl)).elim
  | written t c h1 h2 => exact .inl (moves h1 rfl rfl rfl (other (a := .reading c) h1 rfl rfl nofun rfl))
  | arrive g x y h1 h2 h3 h4 =>
    have h4 : l.out g = (l.conn.conns g).got ++ x ++ y := h4
    have hx : x ≠ [] := by
      rintro rfl
      apply hne
      rw [List.append_nil, List.append_nil]
      have e4 : (fun g' => if g' = g then l.conn.conns g else l.conn.conns g') = l.conn.conns := by
        funext g'
        by_cases hg : g' = g
        · rw [if_pos hg, hg]
        · rw [if_neg hg]
      show ({ l.conn with conns := fun g' => if g' = g then l.conn.conns g else l.conn.conns g' } : Reconn.State Nat) = l.conn
      rw [e4]
    have hg : g = l.conn.conn := by
      rcases Nat.lt_trichotomy g l.conn.conn with e | e | e
      · rw [h.tidy.old g e] at h2; cases h2
      · exact e
      · exfalso
        rw [(h.fresh g e).2.2] at h4
        have := List.append_eq_nil_iff.1 h4.symm
        exact hx (List.append_eq_nil_iff.1 this.1).2
    subst hg
    refine .inl (core (fun e => ?_) rfl (by rw [set rfl]; rfl) fun _ => rfl)
    have e2 := congrArg (fun v => v.got.length) e
    have e2 : (((l.conn.setConn l.conn.conn { l.conn.conns l.conn.conn with got := (l.conn.conns l.conn.conn).got ++ x, inbox := (l.conn.conns l.conn.conn).inbox ++ x }).cur).got).length = l.conn.cur.got.length := e2
    rw [set rfl] at e2
    have := List.length_pos_iff.2 hx
    simp only [List.length_append] at e2
    have e2 : l.conn.cur.got.length + x.length = l.conn.cur.got.length := e2
    omega
  | hangUp g h1 =>
    exfalso
    apply hne
    have e1 := he g
    have e1 : (if g = g then ({ l.conn.conns g with ended := true } : Reconn.Conn) else l.conn.conns g).ended = _ := e1
    rw [if_pos rfl] at e1
    have e4 : (fun g' => if g' = g then ({ l.conn.conns g with ended := true } : Reconn.Conn) else l.conn.conns g') = l.conn.conns := by
      funext g'
      by_cases hg : g' = g
      · rw [if_pos hg, hg, show true = (l.conn.conns g).ended from e1]
      · rw [if_neg hg]
    show ({ l.conn with conns := fun g' => if g' = g then ({ l.conn.conns g with ended := true } : Reconn.Conn) else l.conn.conns g' } : Reconn.State Nat) = l.conn
    rw [e4]
  | read t c h1 h2 => exact (gone h1 rfl (if_pos rfl)).elim
  | readFails t c h1 h2 h3 => exact (gone h1 rfl (if_pos rfl)).elim
  | readTimeout t c h1 h2 h3 h4 => cases h4
  | callClose t h1 h2 => exact h2.elim
  | closeAgain t h1 => exact (bad (t := t) (by rw [h1]; rfl)).elim
  | closeGo t h1 => exact (bad (t := t) (by rw [h1]; rfl)).elim
  | closeRawNil t h1 => exact (bad (t := t) (by rw [h1]; rfl)).elim
  | closeRaw t g h1 => exact (bad (t := t) (by rw [h1]; rfl)).elim
  | clearRaw t h1 => exact (bad (t := t) (by rw [h1]; rfl)).elim
  | closeChanPanic t h1 => exact (bad (t := t) (by rw [h1]; rfl)).elim
  | closeChan t h1 => exact (bad (t := t) (by rw [h1]; rfl)).elim
  | clearChan t h1 => exact (bad (t := t) (by rw [h1]; rfl)).elim
  | callReconnect t h1 h2 =>
    refine absurd h1 (hr t (fun a e => ?_) _)
    have e : (if t = t then Reconn.At.called else l.conn.pc t) = .user a := e
    rw [if_pos rfl] at e
    cases e
  | lockReconnect t h1 h2 => exact .inr (recon (t := t) (a := .locked) rfl (by rw [h1]; decide) rfl (by rw [h1]; rfl) (none_talks_free h h2))
  | noRaw t h1 h2 => exact .inr (recon (t := t) (a := .dial) rfl (by rw [h1]; decide) rfl (by rw [h1]; rfl) (none_talks h (t := t) (by rw [h1]; rfl) (by rw [h1]; rfl)))
  | shut t g h1 h2 h3 => exact .inr (recon (t := t) (a := .dial) rfl (by rw [h1]; decide) rfl (by rw [h1]; rfl) (none_talks h (t := t) (by rw [h1]; rfl) (by rw [h1]; rfl)))
  | shutFails t g h1 h2 h3 => exact .inr (recon (t := t) (a := .user .idle) rfl (by rw [h1]; decide) rfl (by rw [h1]; rfl) (none_talks h (t := t) (by rw [h1]; rfl) (by rw [h1]; rfl)))
  | dial t h1 => exact .inr (recon (t := t) (a := .setRaw l.conn.dialled) rfl (by rw [h1]; simp [rank]) rfl (by rw [h1]; rfl) (none_talks h (t := t) (by rw [h1]; rfl) (by rw [h1]; rfl)))
  | dialFails t h1 => exact .inr (recon (t := t) (a := .user .idle) rfl (by rw [h1]; decide) rfl (by rw [h1]; rfl) (none_talks h (t := t) (by rw [h1]; rfl) (by rw [h1]; rfl)))
  | setRaw t g h1 => exact .inr (recon (t := t) (a := .setConn g) rfl (by rw [h1]; simp [rank]) rfl (by rw [h1]; rfl) (none_talks h (t := t) (by rw [h1]; rfl) (by rw [h1]; rfl)))
  | setConn t g h1 => exact .inr (recon (t := t) (a := .user .idle) rfl (by rw [h1]; simp [rank]) rfl (by rw [h1]; rfl) (none_talks h (t := t) (by rw [h1]; rfl) (by rw [h1]; rfl)))

/-- An operation that returns leaves everybody else where they are. -/
theorem ret_keeps {P : Reconn.Params Nat} {c c' : Reconn.State Nat} (hs : Reconn.Step P c c') {i : Nat} {d : Call Out} {r : Res Out}
    (h3 : opOf (c.pc i) = some d) (h4 : c'.pc i = .user .idle) (h5 : c'.log = c.log ++ [.op d r]) :
    c'.conn = c.conn ∧ c'.cur.isOpen = c.cur.isOpen ∧ ∀ u, u ≠ i → c'.pc u = c.pc u := by
  have nolog : ∀ {x : Reconn.Event}, c.log ≠ c.log ++ [x] := fun h => absurd (congrArg List.length h) (by simp)
  have wrong : ∀ {x y : Reconn.Event}, x ≠ y → c.log ++ [x] ≠ c.log ++ [y] := fun hxy h => hxy (by injection (List.append_cancel_left h))
  have key : ∀ t, (∀ u, u ≠ t → c'.pc u = c.pc u) → ∀ u, u ≠ i → c'.pc u = c.pc u := by
    intro t ht
    by_cases hti : i = t
    · rw [hti]; exact ht
    · have := ht i hti
      rw [h4] at this
      rw [← this] at h3
      cases h3
  have gone : ∀ (t : Nat) (a : Reconn.At) (u : Nat), u ≠ t → (c.goto t a).pc u = c.pc u := fun t a u hu => if_neg hu
  cases hs with
  | unencodable t | unencodablePanic t => exact ⟨rfl, rfl, key t (gone t _)⟩
  | writeFails t _ _ _ _ | read t _ _ _ | readFails t _ _ _ _ | readTimeout t _ _ _ _ _ =>
    refine ⟨rfl, ?_, key t (gone t _)⟩
    show (if c.conn = c.conn then _ else _ : Reconn.Conn).isOpen = _
    rw [if_pos rfl]
  | refuse | shutFails | dialFails | setConn => exact absurd h5 (wrong nofun)
  | _ => exact absurd h5 nolog

theorem view_ended {c c' : Reconn.State Nat} (h1 : c'.conn = c.conn) (h2 : c'.cur.isOpen = c.cur.isOpen) (h3 : ∀ g, (c'.conns g).ended = (c.conns g).ended) :
    (view c').ended = (view c).ended := by
  show (c'.cur.ended || !c'.cur.isOpen) = (c.cur.ended || !c.cur.isOpen)
  rw [h2, show c'.cur.ended = c.cur.ended by show (c'.conns c'.conn).ended = _; rw [h3, h1]; rfl]

/-- How far from its end Reconnect is for a goroutine. -/
def State.rank (w : State S) (p : Nat) (s : S) (t : Nat) : Nat := Rewired.rank ((w.line p s).conn.pc t)

theorem put_lineSelf (w : State S) (p : Nat) (s : S) (l : Line) : (w.put p s l).line p s = l := if_pos ⟨rfl, rfl⟩

theorem rank_put {w : State S} {p : Nat} {s : S} {l : Line} (h : ∀ t, Rewired.rank (l.conn.pc t) = Rewired.rank ((w.line p s).conn.pc t)) (p' : Nat) (s' : S) (t : Nat) :
    (w.put p s l).rank p' s' t = w.rank p' s' t := by
  show Rewired.rank (((w.put p s l).line p' s').conn.pc t) = _
  rw [put_line]
  by_cases e : p' = p ∧ s' = s
  · rw [if_pos e, h, e.1, e.2]; rfl
  · rw [if_neg e]; rfl

theorem ended_put {w : State S} {p : Nat} {s : S} {v : Wired.Line} (h : v.conn.ended = (w.view.line p s).conn.ended) (p' : Nat) (s' : S) :
    ((w.view.put p s v).line p' s').conn.ended = (w.view.line p' s').conn.ended := by
  rw [Wired.put_line]
  by_cases e : p' = p ∧ s' = s
  · rw [if_pos e, h, e.1, e.2]
  · rw [if_neg e]

theorem used_put {w : State S} {p : Nat} {s : S} {v : Wired.Line} (h : (w.view.line p s).conn.ended = true → v.used = (w.view.line p s).used) (p' : Nat) (s' : S)
    (he : (w.view.line p' s').conn.ended = true) : ((w.view.put p s v).line p' s').used = (w.view.line p' s').used := by
  rw [Wired.put_line]
  by_cases e : p' = p ∧ s' = s
  · rw [e.1, e.2] at he ⊢
    rw [if_pos ⟨rfl, rfl⟩, h he]
  · rw [if_neg e]

/-- Whatever goes on, an operation gets on, as seen on the connections in use, or Reconnect does. -/
theorem goes_view {w w' : State S} {a : Mended S} {ph} (h : Resim U w a ph) (hs : Spec.Rewired.GoesOn U w w') :
    (Spec.Wired.GoesOn U w.view w'.view ∧ ∀ p s t, w'.rank p s t = w.rank p s t)
      ∨ ∃ p s t, w'.rank p s t < w.rank p s t ∧ (∀ p' s' t', ¬ (p' = p ∧ s' = s ∧ t' = t) → w'.rank p' s' t' = w.rank p' s' t')
        ∧ ∀ i, load U w'.view i = load U w.view i := by
  obtain ⟨e, hs, ht, hst, hne, hr, hend, hused⟩ := hs
  cases hs with
  | tick d => exact absurd rfl (ht d)
  | start i m h1 => exact absurd rfl (hst i m)
  | finish i r h1 =>
    refine .inl ⟨⟨_, .finish w.view i r h1, by simp, by simp, fun e => ?_, fun _ _ => rfl, fun _ _ _ => rfl⟩, fun _ _ _ => rfl⟩
    have := congrArg (fun w : Wired.State S => w.prog i) e
    have this : (if i = i then none else w.prog i) = w.prog i := this
    rw [if_pos rfl, h1] at this
    cases this
  | begin i s op k h1 h2 =>
    have hI := h.inv (U.proc i) s
    have hst := Wired.Step.begin (U := U) w.view i s op k h1 (by show ((w.line (U.proc i) s).conn.pc i).ofOp = _; rw [h2]; rfl)
    refine .inl ⟨⟨none, ?_, by simp, by simp, fun e => ?_, ?_, ?_⟩, rank_put fun t => ?_⟩
    · rw [put_view, line_view w (U.proc i) s (c' := (w.line (U.proc i) s).conn.goto i (.user (.called (U.call s op)))) rfl, view_called hI.excl h2]
      exact hst
    · have e := congrArg (fun w : Wired.State S => (w.line (U.proc i) s).conn.pc i) e
      dsimp only at e
      rw [put_view, Wired.put_self] at e
      have e : Reconn.At.ofOp (if i = i then .user (.called (U.call s op)) else (w.line (U.proc i) s).conn.pc i) = ((w.line (U.proc i) s).conn.pc i).ofOp := e
      rw [if_pos rfl, h2] at e
      cases e
    · rw [put_view]; exact ended_put rfl
    · rw [put_view]; exact used_put fun _ => rfl
    · show Rewired.rank (if t = i then .user (.called (U.call s op)) else (w.line (U.proc i) s).conn.pc t) = _
      by_cases e : t = i
      · rw [if_pos e, e, h2]; rfl
      · rw [if_neg e]
  | work p s c' h1 h2 =>
    have hc : c' ≠ (w.line p s).conn := by
      rintro rfl
      exact hne (put_same w p s)
    have hself : (w.put p s { w.line p s with conn := c' }).line p s = { w.line p s with conn := c' } := put_lineSelf _ _ _ _
    have he : ∀ g, (c'.conns g).ended = ((w.line p s).conn.conns g).ended := fun g => by
      have := hend p s g
      rw [hself] at this
      exact this
    rcases work_view (h.inv p s) h1 h2 hc (fun t ht => by
        have := hr p s t
        unfold Spec.Rewired.Reconnecting at this
        rw [hself] at this
        exact this ht) he with ⟨g1, g2, g3, g4, g5⟩ | ⟨t, g1, g2, g3, g4⟩
    · refine .inl ⟨⟨none, ?_, by simp, by simp, fun e => ?_, ?_, ?_⟩, rank_put g5⟩
      · rw [put_view, line_view _ _ _ g3]
        refine Wired.Step.work w.view p s (view c') g1 fun i => ?_
        show (c'.pc i).ofOp.op = ((w.line p s).conn.pc i).ofOp.op
        rw [ofOp_op, ofOp_op]; exact h2 i
      · have e := congrArg (fun w : Wired.State S => (w.line p s).conn) e
        dsimp only at e
        rw [put_view, Wired.put_self] at e
        exact g2 e
      · rw [put_view]; exact ended_put g4
      · rw [put_view]
        refine used_put fun _ => ?_
        show (w.line p s).used c'.conn = (w.line p s).used (w.line p s).conn.conn
        rw [g3]
    · refine .inr ⟨p, s, t, ?_, fun p' s' t' hn => ?_, fun i => ?_⟩
      · show Rewired.rank (((w.put p s _).line p s).conn.pc t) < _
        rw [hself]; exact g1
      · show Rewired.rank (((w.put p s _).line p' s').conn.pc t') = Rewired.rank _
        rw [put_line]
        by_cases e : p' = p ∧ s' = s
        · rw [if_pos e, e.1, e.2]
          show Rewired.rank (c'.pc t') = _
          rw [g2 t' fun e' => hn ⟨e.1, e.2, e'⟩]
        · rw [if_neg e]
      · rw [put_view]
        refine Wired.load_put fun op k _ _ => Wired.left_other ?_ (g4 i)
        show (c'.pc i).ofOp = ((w.line p s).conn.pc i).ofOp
        by_cases e : i = t
        · rw [e, g3]
        · rw [g2 i e]
  | ret i s op k c r c' h1 h2 h3 h4 h5 =>
    obtain ⟨k1, k2, k3⟩ := ret_keeps h2 h3 h4 h5
    have hself : (w.put (U.proc i) s { w.line (U.proc i) s with conn := c' }).line (U.proc i) s = { w.line (U.proc i) s with conn := c' } := put_lineSelf _ _ _ _
    have he : ∀ g, (c'.conns g).ended = ((w.line (U.proc i) s).conn.conns g).ended := fun g => by
      have := hend (U.proc i) s g
      have this : ((((w.put (U.proc i) s { w.line (U.proc i) s with conn := c' }).line (U.proc i) s).conn.conns g)).ended = _ := this
      rw [hself] at this
      exact this
    have hv : (view c').log = (view (w.line (U.proc i) s).conn).log ++ [(c, r)] := by
      show opsOf c'.log = opsOf (w.line (U.proc i) s).conn.log ++ _
      rw [h5, opsOf_op]
    obtain ⟨-, -, l3⟩ := line_step (h.inv (U.proc i) s) h2
    refine .inl ⟨⟨none, ?_, by simp, by simp, fun e => ?_, ?_, ?_⟩, fun p' s' t => ?_⟩
    · cases l3 with
      | step h6 h7 =>
        have hst := Wired.Step.ret (U := U) w.view i s op k c r (view c') h1 h6 (by show ((w.line (U.proc i) s).conn.pc i).ofOp.op = _; rw [ofOp_op]; exact h3)
          (by show (c'.pc i).ofOp = _; rw [h4]; rfl) hv
        show Wired.Step U w.view none ((State.view (w.put (U.proc i) s { w.line (U.proc i) s with conn := c' })).set i (some (k r)))
        rw [put_view, line_view _ _ _ h7]
        exact hst
      | still h6 h7 =>
        exfalso
        rw [h6] at hv
        have := congrArg List.length hv
        simp at this
      | turns t g h6 h7 =>
        exfalso
        obtain ⟨g3, -⟩ := (h.inv (U.proc i) s).gen.next t g (by rw [h6]; rfl)
        rw [h7] at k1
        have k1 : g = (w.line (U.proc i) s).conn.conn := k1
        omega
    · have e := congrArg (fun w : Wired.State S => (w.line (U.proc i) s).conn.log) e
      have e : (view ((w.put (U.proc i) s { w.line (U.proc i) s with conn := c' }).line (U.proc i) s).conn).log = (view (w.line (U.proc i) s).conn).log := e
      rw [hself] at e
      have e : (view c').log = _ := e
      rw [hv] at e
      have := congrArg List.length e
      simp at this
    · show ∀ p' s', ((State.view (w.put (U.proc i) s { w.line (U.proc i) s with conn := c' })).line p' s').conn.ended = _
      rw [put_view]; exact ended_put (view_ended k1 k2 he)
    · show ∀ p' s', _ → ((State.view (w.put (U.proc i) s { w.line (U.proc i) s with conn := c' })).line p' s').used = _
      rw [put_view]
      refine used_put fun _ => ?_
      show (w.line (U.proc i) s).used c'.conn = (w.line (U.proc i) s).used (w.line (U.proc i) s).conn.conn
      rw [k1]
    · refine rank_put (w := w) (p := U.proc i) (s := s) (l := { w.line (U.proc i) s with conn := c' }) (fun t => ?_) p' s' t
      show Rewired.rank (c'.pc t) = _
      by_cases e : t = i
      · rw [e, h4]
        cases hp : (w.line (U.proc i) s).conn.pc i with
        | user b => rfl
        | _ => rw [hp] at h3; cases h3
      · rw [k3 t e]
  | serve p s g x y reply rest st h1 h2 =>
    have hlt := step_lt h2
    have hxne : x ≠ [] := fun hx => by subst hx; exact absurd hlt (by simp)
    have hcond : g = (w.line p s).conn.conn ∧ ((w.line p s).conn.conns g).ended = false ∧ ((w.line p s).conn.conns g).isOpen = true := by
      refine Classical.byContradiction fun hn => ?_
      have := hused p s g hn
      have this : ((w.put p s _).line p s).used g = (w.line p s).used g := this
      rw [put_lineSelf] at this
      have this : (if g = g then (w.line p s).used g + (x.length - rest.length) else (w.line p s).used g) = _ := this
      rw [if_pos rfl] at this
      omega
    obtain ⟨rfl, hc1, hc2⟩ := hcond
    have hst := Wired.Step.serve (U := U) w.view p s x y reply rest st h1 h2
    have e := put_view w p s { w.line p s with
      used := fun h => if h = (w.line p s).conn.conn then (w.line p s).used (w.line p s).conn.conn + (x.length - rest.length) else (w.line p s).used h
      out := fun h => if h = (w.line p s).conn.conn then (w.line p s).out (w.line p s).conn.conn ++ reply else (w.line p s).out h }
    have e2 : Line.view { w.line p s with
      used := fun h => if h = (w.line p s).conn.conn then (w.line p s).used (w.line p s).conn.conn + (x.length - rest.length) else (w.line p s).used h
      out := fun h => if h = (w.line p s).conn.conn then (w.line p s).out (w.line p s).conn.conn ++ reply else (w.line p s).out h }
        = { w.view.line p s with used := (w.view.line p s).used + (x.length - rest.length), out := (w.view.line p s).out ++ reply } := by
      show Wired.Line.mk _ (if (w.line p s).conn.conn = (w.line p s).conn.conn then _ else _) (if (w.line p s).conn.conn = (w.line p s).conn.conn then _ else _) = Wired.Line.mk _ _ _
      rw [if_pos rfl, if_pos rfl]; rfl
    rw [e2] at e
    have e3 := congrArg Wired.State.line e
    have hv : (State.view { (w.put p s { w.line p s with
      used := fun h => if h = (w.line p s).conn.conn then (w.line p s).used (w.line p s).conn.conn + (x.length - rest.length) else (w.line p s).used h
      out := fun h => if h = (w.line p s).conn.conn then (w.line p s).out (w.line p s).conn.conn ++ reply else (w.line p s).out h }) with
      world := World.update w.world s st, calls := w.calls + 1 } : Wired.State S)
      = { (w.view.put p s { w.view.line p s with used := (w.view.line p s).used + (x.length - rest.length), out := (w.view.line p s).out ++ reply }) with
          world := World.update w.view.world s st, calls := w.view.calls + 1 } := by
      show Wired.State.mk _ _ _ _ = Wired.State.mk _ _ _ _
      congr 1
    refine .inl ⟨⟨none, ?_, by simp, by simp, fun e => ?_, ?_, ?_⟩, fun p' s' t => ?_⟩
    · rw [hv]; exact hst
    · have e := congrArg (fun w : Wired.State S => w.calls) e
      have e : w.calls + 1 = w.calls := e
      omega
    · rw [hv]; exact ended_put (v := { w.view.line p s with used := (w.view.line p s).used + (x.length - rest.length), out := (w.view.line p s).out ++ reply }) rfl
    · rw [hv]
      refine used_put (v := { w.view.line p s with used := (w.view.line p s).used + (x.length - rest.length), out := (w.view.line p s).out ++ reply }) fun he => ?_
      have he : (((w.line p s).conn.conns (w.line p s).conn.conn).ended || !((w.line p s).conn.conns (w.line p s).conn.conn).isOpen) = true := he
      rw [hc1, hc2] at he
      cases he
    · refine rank_put (w := w) (p := p) (s := s) (l := { w.line p s with
        used := fun h => if h = (w.line p s).conn.conn then (w.line p s).used (w.line p s).conn.conn + (x.length - rest.length) else (w.line p s).used h
        out := fun h => if h = (w.line p s).conn.conn then (w.line p s).out (w.line p s).conn.conn ++ reply else (w.line p s).out h }) (fun t => rfl) p' s' t

/-! ### Something can happen -/

/-- One client changed, but nothing broke and nobody called Reconnect. -/
theorem goesOn_put {w : State S} {p : Nat} {s : S} {l : Line} {x : Nat → Option (Prog S)}
    (hs : Step U w none { w.put p s l with prog := x })
    (h1 : ∀ g, (l.conn.conns g).ended = ((w.line p s).conn.conns g).ended) (h2 : l.used = (w.line p s).used)
    (h4 : ∀ t, rank ((w.line p s).conn.pc t) = 0 → rank (l.conn.pc t) = 0) {i : Nat} (h3 : l.conn.pc i ≠ (w.line p s).conn.pc i) :
    ∃ w', Spec.Rewired.GoesOn U w w' := by
  refine ⟨_, none, hs, by simp, by simp, fun h => ?_, fun p' s' t => ?_, fun p' s' g => ?_, fun p' s' g _ => ?_⟩
  · have := congrArg (fun w : State S => (w.line p s).conn.pc i) h
    dsimp only at this
    rw [put_lineSelf] at this
    exact h3 this
  · show (∀ a, ((w.put p s l).line p' s').conn.pc t ≠ .user a) → _
    rw [put_line]
    by_cases h : p' = p ∧ s' = s
    · rw [if_pos h, h.1, h.2]
      intro g a e
      obtain ⟨b, hb⟩ := rank_zero.1 (h4 t (rank_zero.2 ⟨a, e⟩))
      exact g b hb
    · rw [if_neg h]; exact id
  · show (((w.put p s l).line p' s').conn.conns g).ended = _
    rw [put_line]
    by_cases h : p' = p ∧ s' = s
    · rw [if_pos h, h.1, h.2]; exact h1 g
    · rw [if_neg h]
  · show ((w.put p s l).line p' s').used g = _
    rw [put_line]
    by_cases h : p' = p ∧ s' = s
    · rw [if_pos h, h.1, h.2, h2]
    · rw [if_neg h]

/-- A goroutine with the mutex of a client gets on. -/
theorem inside_goes {w : State S} {a : Mended S} {ph} (h : Resim U w a ph) {p : Nat} {s : S} {t : Nat} (ht : ((w.line p s).conn.pc t).inside = true) :
    ∃ w', Spec.Rewired.GoesOn U w w' := by
  have hI := h.inv p s
  have gotoStep : ∀ (at' : Reconn.At) (c' : Reconn.State Nat),
      Reconn.Step (params U s (w.line p s).out) (w.line p s).conn c' → (c'.pc = ((w.line p s).conn.goto t at').pc) →
      (∀ g, (c'.conns g).ended = ((w.line p s).conn.conns g).ended) → opOf at' = opOf ((w.line p s).conn.pc t) → at' ≠ (w.line p s).conn.pc t →
      (rank ((w.line p s).conn.pc t) = 0 → rank at' = 0) → ∃ w', Spec.Rewired.GoesOn U w w' := by
    intro at' c' hs hpc he ho hne hrk
    have hpc' : ∀ u, c'.pc u = if u = t then at' else (w.line p s).conn.pc u := fun u => by rw [hpc]; rfl
    refine goesOn_put (x := w.prog) (l := { w.line p s with conn := c' }) (i := t) (.work w p s c' hs fun u => ?_) he rfl (fun u hu => ?_) ?_
    · rw [hpc']
      by_cases e : u = t
      · rw [if_pos e, ho, e]
      · rw [if_neg e]
    · show rank (c'.pc u) = 0
      rw [hpc']
      by_cases e : u = t
      · rw [if_pos e]; exact hrk (e ▸ hu)
      · rw [if_neg e]; exact hu
    · show c'.pc t ≠ _
      rw [hpc', if_pos rfl]; exact hne
  have retStep : ∀ (op : Op) (k : Res Out → Prog S) (c : Call Out) (r : Res Out) (c' : Reconn.State Nat), p = U.proc t → w.prog t = some (.call s op k) →
      Reconn.Step (params U s (w.line p s).out) (w.line p s).conn c' → opOf ((w.line p s).conn.pc t) = some c →
      c'.pc = ((w.line p s).conn.goto t (.user .idle)).pc → (∀ g, (c'.conns g).ended = ((w.line p s).conn.conns g).ended) →
      c'.log = (w.line p s).conn.log ++ [.op c r] → ∃ w', Spec.Rewired.GoesOn U w w' := by
    intro op k c r c' hpt hp hs hop hpc he hlog
    subst hpt
    have hpc' : ∀ u, c'.pc u = if u = t then .user .idle else (w.line (U.proc t) s).conn.pc u := fun u => by rw [hpc]; rfl
    have hidle : c'.pc t = .user .idle := by rw [hpc', if_pos rfl]
    refine goesOn_put (l := { w.line (U.proc t) s with conn := c' }) (i := t) (.ret w t s op k c r c' hp hs hop hidle hlog) he rfl (fun u hu => ?_) ?_
    · show rank (c'.pc u) = 0
      rw [hpc']
      by_cases e : u = t
      · rw [if_pos e]; rfl
      · rw [if_neg e]; exact hu
    · show c'.pc t ≠ _
      rw [hidle]
      intro e
      rw [← e] at hop
      cases hop
  have setEnded : ∀ {c : Reconn.State Nat} {g : Nat} {v : Reconn.Conn}, c.conns = (w.line p s).conn.conns → v.ended = ((w.line p s).conn.conns g).ended →
      ∀ g', ((c.setConn g v).conns g').ended = ((w.line p s).conn.conns g').ended := by
    intro c g v hc hv g'
    show (if g' = g then v else c.conns g').ended = _
    by_cases e : g' = g
    · rw [if_pos e, hv, e]
    · rw [if_neg e, hc]
  have mine : ∀ {b : Sched.At} {c : Call Out}, (w.line p s).conn.pc t = .user b → b.op = some c → _ := fun {b c} hb hc =>
    h.now.mine p s t c (by show ((w.line p s).conn.pc t).ofOp.op = some c; rw [ofOp_op, hb]; exact hc)
  cases hpc : (w.line p s).conn.pc t with
  | called => rw [hpc] at ht; cases ht
  | locked =>
    cases hraw : (w.line p s).conn.raw with
    | none => exact gotoStep .dial _ (.noRaw _ t hpc hraw) rfl (fun _ => rfl) (by rw [hpc]; rfl) (by rw [hpc]; nofun) (by rw [hpc]; nofun)
    | some g =>
      cases ho : ((w.line p s).conn.conns g).isOpen with
      | true => exact gotoStep .dial _ (.shut _ t g hpc hraw ho) rfl (setEnded rfl rfl) (by rw [hpc]; rfl) (by rw [hpc]; nofun) (by rw [hpc]; nofun)
      | false => exact gotoStep (.user .idle) _ (.shutFails _ t g hpc hraw ho) rfl (fun _ => rfl) (by rw [hpc]; rfl) (by rw [hpc]; nofun) fun _ => rfl
  | dial => exact gotoStep (.setRaw _) _ (.dial _ t hpc) rfl (fun _ => rfl) (by rw [hpc]; rfl) (by rw [hpc]; nofun) (by rw [hpc]; nofun)
  | setRaw g => exact gotoStep (.setConn g) _ (.setRaw _ t g hpc) rfl (fun _ => rfl) (by rw [hpc]; rfl) (by rw [hpc]; nofun) (by rw [hpc]; nofun)
  | setConn g => exact gotoStep (.user .idle) _ (.setConn _ t g hpc) rfl (fun _ => rfl) (by rw [hpc]; rfl) (by rw [hpc]; nofun) fun _ => rfl
  | user b =>
    have hraw : (w.line p s).conn.raw ≠ none := by
      rw [hpc] at ht
      exact raw_of_inside hI hpc ht
    cases b with
    | idle | called | close | closeRaw | clearRaw | closeChan | clearChan => rw [hpc] at ht; cases ht
    | locked c =>
      exact gotoStep (.user (.writeDeadline c)) _ (.pass _ t c hpc fun _ => hraw) rfl (fun _ => rfl) (by rw [hpc]; rfl) (by rw [hpc]; nofun) fun _ => rfl
    | writeDeadline c =>
      cases hto : U.timeout with
      | true => exact gotoStep (.user (.readDeadline c)) _ (.writeDeadline _ t c hpc hto hraw) rfl (fun _ => rfl) (by rw [hpc]; rfl) (by rw [hpc]; nofun) fun _ => rfl
      | false =>
        obtain ⟨-, -, wire, cmd, e1, -⟩ := mine hpc rfl
        exact gotoStep (.user (.writing c wire)) _ (.noDeadline _ t c wire hpc hto e1) rfl (fun _ => rfl) (by rw [hpc]; rfl) (by rw [hpc]; nofun) fun _ => rfl
    | readDeadline c =>
      obtain ⟨-, -, wire, cmd, e1, -⟩ := mine hpc rfl
      exact gotoStep (.user (.writing c wire)) _ (.readDeadline _ t c wire hpc hraw e1) rfl (fun _ => rfl) (by rw [hpc]; rfl) (by rw [hpc]; nofun) fun _ => rfl
    | writing c todo =>
      obtain ⟨hpt, ⟨op', k', m1, -⟩, -⟩ := mine hpc rfl
      cases hw : (w.line p s).conn.cur.werr with
      | true => exact retStep op' k' c (.err .io) _ hpt m1 (.writeFails _ t c todo hpc (.inr (.inr (.inl hw)))) (by rw [hpc]; rfl) rfl (setEnded rfl rfl) rfl
      | false =>
        cases ho : (w.line p s).conn.cur.isOpen with
        | false => exact retStep op' k' c (.err .io) _ hpt m1 (.writeFails _ t c todo hpc (.inl ho)) (by rw [hpc]; rfl) rfl (setEnded rfl rfl) rfl
        | true =>
          cases todo with
          | nil => exact gotoStep (.user (.reading c)) _ (.written _ t c hpc hw) rfl (fun _ => rfl) (by rw [hpc]; rfl) (by rw [hpc]; nofun) fun _ => rfl
          | cons b bs =>
            exact gotoStep (.user (.writing c [])) _ (.write _ t c (b :: bs) [] (by rw [List.append_nil]; exact hpc) ho hw) rfl (setEnded rfl rfl) (by rw [hpc]; rfl) (by rw [hpc]; simp) fun _ => rfl
    | reading c =>
      have hpc2 : (view (w.line p s).conn).pc t = .reading c := pc_view rfl hpc
      have htalk : ((w.view.line p s).conn.pc t).talking = some (c, []) := by rw [show (w.view.line p s).conn = view (w.line p s).conn from rfl, hpc2]; rfl
      obtain ⟨hpt, ⟨op', k', m1, m2⟩, wire, cmd, e1, e2⟩ := mine hpc rfl
      by_cases hbr : (w.line p s).conn.cur.isOpen = false ∨ (w.line p s).conn.cur.ended = true
      · by_cases hr : (c.rd (w.line p s).conn.cur.inbox).1 = .err .io
        · exact retStep op' k' c (.err .io) _ hpt m1 (.readFails _ t c hpc hr hbr) (by rw [hpc]; rfl) rfl (setEnded rfl rfl) rfl
        · exact retStep op' k' c _ _ hpt m1 (.read _ t c hpc hr) (by rw [hpc]; rfl) rfl (setEnded rfl rfl) rfl
      · have ho : (w.line p s).conn.cur.isOpen = true := by
          cases hx : (w.line p s).conn.cur.isOpen with
          | true => rfl
          | false => exact absurd (.inl hx) hbr
        have hen : (w.line p s).conn.cur.ended = false := by
          cases hx : (w.line p s).conn.cur.ended with
          | false => rfl
          | true => exact absurd (.inr hx) hbr
        have hend : (w.view.line p s).conn.ended = false := by
          show ((w.line p s).conn.cur.ended || !(w.line p s).conn.cur.isOpen) = false
          rw [ho, hen]; rfl
        have hph := h.now.line p s
        have hwho := Wired.ph_of (view_excl hI.excl) htalk hph
        generalize (a.now.pending p s).map (Wired.wireOf U s) = q at hph
        generalize ph p s = o at hph hwho
        cases hph with
        | quiet g1 => rw [g1 t] at htalk; cases htalk
        | dead g1 => rw [hend] at g1; cases g1
        | asking t' c1 z todo g1 g2 g3 g4 g5 g6 =>
          rcases hwho with ⟨o, hwho⟩ | ⟨hwho, -⟩
          rotate_left
          · cases hwho
          injection hwho with hwho
          injection hwho with w1 w2
          injection w2 with w2 w3
          subst w1 w2
          rw [htalk] at g1
          injection g1 with g1
          injection g1 with _ g1
          subst g1
          rw [List.append_nil, e1] at g2
          injection g2 with g2
          subst g2
          rw [(g6 hend).1] at g4
          have hall : ∃ reply st, Mc.step (w.world s) wire = some (reply, st, []) := by
            unfold Mc.step
            rw [e2]
            cases cmd <;> exact ⟨_, _, rfl⟩
          obtain ⟨reply, st, hall⟩ := hall
          refine ⟨_, none, .serve w p s (w.line p s).conn.conn wire [] reply [] st (by rw [List.append_nil]; exact g4) hall, by simp, by simp, fun e => ?_, fun p' s' u => ?_,
            fun p' s' g => ?_, fun p' s' g hn => ?_⟩
          · have := congrArg (fun w : State S => w.calls) e
            dsimp only at this
            omega
          · show (∀ a, ((w.put p s _).line p' s').conn.pc u ≠ .user a) → _
            rw [put_line]
            by_cases h' : p' = p ∧ s' = s
            · rw [if_pos h', h'.1, h'.2]; exact id
            · rw [if_neg h']; exact id
          · show (((w.put p s _).line p' s').conn.conns g).ended = _
            rw [put_line]
            by_cases h' : p' = p ∧ s' = s
            · rw [if_pos h', h'.1, h'.2]
            · rw [if_neg h']
          · show ((w.put p s _).line p' s').used g = _
            rw [put_line]
            by_cases h' : p' = p ∧ s' = s
            · rw [h'.1, h'.2] at hn ⊢
              rw [if_pos ⟨rfl, rfl⟩]
              show (if g = (w.line p s).conn.conn then _ else _) = _
              rw [if_neg fun e => hn ⟨e, by rw [e]; exact hen, by rw [e]; exact ho⟩]
            · rw [if_neg h']
        | told t' c1 r rest g1 g2 g3 g4 g5 g6 g7 =>
          rcases hwho with ⟨o, hwho⟩ | ⟨hwho, -⟩
          rotate_left
          · cases hwho
          injection hwho with hwho
          injection hwho with w1 w2
          injection w2 with w2 w3
          subst w1 w2
          cases rest with
          | cons b bs =>
            have hdial : (w.line p s).conn.conn < (w.line p s).conn.dialled := by
              by_cases hn : ∀ u, ((w.line p s).conn.pc u).next = none
              · rw [hI.gen.none hn]; omega
              · have : ∃ u g, ((w.line p s).conn.pc u).next = some g := Classical.byContradiction fun hx => hn fun u => by
                  cases hu : ((w.line p s).conn.pc u).next with
                  | none => rfl
                  | some g => exact absurd ⟨u, g, hu⟩ hx
                obtain ⟨u, g, hu⟩ := this
                have := (hI.gen.next u g hu).2
                omega
            refine ⟨_, none, .work w p s _ (.arrive _ (w.line p s).conn.conn (b :: bs) [] hdial ho hen (by rw [List.append_nil]; exact g5 hend)) fun _ => rfl, by simp, by simp, fun e => ?_,
              fun p' s' u => ?_, fun p' s' g => ?_, fun p' s' g hn => ?_⟩
            · have := congrArg (fun w : State S => ((w.line p s).conn.conns (w.line p s).conn.conn).got.length) e
              dsimp only at this
              rw [put_lineSelf] at this
              have this : (if (w.line p s).conn.conn = (w.line p s).conn.conn then _ else _ : Reconn.Conn).got.length = _ := this
              rw [if_pos rfl] at this
              simp at this
            · show (∀ a, ((w.put p s _).line p' s').conn.pc u ≠ .user a) → _
              rw [put_line]
              by_cases h' : p' = p ∧ s' = s
              · rw [if_pos h', h'.1, h'.2]; exact id
              · rw [if_neg h']; exact id
            · show (((w.put p s _).line p' s').conn.conns g).ended = _
              rw [put_line]
              by_cases h' : p' = p ∧ s' = s
              · rw [if_pos h', h'.1, h'.2]; exact setEnded (c := (w.line p s).conn) (g := (w.line p s).conn.conn) (v := { (w.line p s).conn.conns (w.line p s).conn.conn with got := ((w.line p s).conn.conns (w.line p s).conn.conn).got ++ b :: bs, inbox := ((w.line p s).conn.conns (w.line p s).conn.conn).inbox ++ b :: bs }) rfl rfl g
              · rw [if_neg h']
            · show ((w.put p s _).line p' s').used g = _
              rw [put_line]
              by_cases h' : p' = p ∧ s' = s
              · rw [if_pos h', h'.1, h'.2]
              · rw [if_neg h']
          | nil =>
            rw [List.append_nil] at g6
            have hr : (c1.rd (w.line p s).conn.cur.inbox).1 ≠ .err .io := by
              have : c1.rd (w.line p s).conn.cur.inbox = _ := g6
              rw [this]; exact g7
            exact retStep op' k' c1 _ _ hpt m1 (.read _ t' c1 hpc hr) (by rw [hpc]; rfl) rfl (setEnded rfl rfl) rfl

/-- Somebody waits for the mutex: he gets it, or somebody has it. -/
theorem waits_goes {w : State S} {a : Mended S} {ph} (h : Resim U w a ph) {p : Nat} {s : S} {t : Nat}
    (ht : (w.line p s).conn.pc t = .called ∨ ∃ c, (w.line p s).conn.pc t = .user (.called c)) : ∃ w', Spec.Rewired.GoesOn U w w' := by
  cases hl : (w.line p s).conn.lock with
  | some u => exact inside_goes h (((h.inv p s).excl u).2 hl)
  | none =>
    rcases ht with ht | ⟨c, ht⟩
    · refine goesOn_put (x := w.prog) (i := t) (.work w p s _ (.lockReconnect _ t ht hl) fun u => ?_) (fun _ => rfl) rfl (fun u hu => ?_) ?_
      · show opOf (if u = t then .locked else (w.line p s).conn.pc u) = _
        by_cases e : u = t
        · rw [if_pos e, e, ht]; rfl
        · rw [if_neg e]
      · show rank (if u = t then .locked else (w.line p s).conn.pc u) = 0
        by_cases e : u = t
        · rw [e, ht] at hu; cases hu
        · rw [if_neg e]; exact hu
      · show (if t = t then .locked else (w.line p s).conn.pc t) ≠ _
        rw [if_pos rfl, ht]; nofun
    · refine goesOn_put (x := w.prog) (i := t) (.work w p s _ (.lock _ t c ht hl) fun u => ?_) (fun _ => rfl) rfl (fun u hu => ?_) ?_
      · show opOf (if u = t then .user (.locked c) else (w.line p s).conn.pc u) = _
        by_cases e : u = t
        · rw [if_pos e, e, ht]; rfl
        · rw [if_neg e]
      · show rank (if u = t then .user (.locked c) else (w.line p s).conn.pc u) = 0
        by_cases e : u = t
        · rw [if_pos e]; rfl
        · rw [if_neg e]; exact hu
      · show (if t = t then .user (.locked c) else (w.line p s).conn.pc t) ≠ _
        rw [if_pos rfl, ht]; nofun

/-- Somebody is in Reconnect: something can happen. -/
theorem recon_goes {w : State S} {a : Mended S} {ph} (h : Resim U w a ph) {p : Nat} {s : S} {t : Nat} (ht : Spec.Rewired.Reconnecting w p s t) :
    ∃ w', Spec.Rewired.GoesOn U w w' := by
  cases hpc : (w.line p s).conn.pc t with
  | user b => exact absurd hpc (ht b)
  | called => exact waits_goes h (.inl hpc)
  | locked | dial | setRaw | setConn => exact inside_goes h (t := t) (by rw [hpc]; rfl)

/-- Somebody has not finished: something can happen. -/
theorem busy_goes {w : State S} {a : Mended S} {ph} (h : Resim U w a ph) {i : Nat} (hi : w.prog i ≠ none) : ∃ w', Spec.Rewired.GoesOn U w w' := by
  cases hx : w.prog i with
  | none => exact absurd hx hi
  | some x =>
    cases x with
    | ret r =>
      refine ⟨_, some (.finish i r), .finish w i r hx, by simp, by simp, fun e => ?_, fun _ _ _ => id, fun _ _ _ => rfl, fun _ _ _ _ => rfl⟩
      have := congrArg (fun w : State S => w.prog i) e
      have this : (if i = i then none else w.prog i) = w.prog i := this
      rw [if_pos rfl, hx] at this
      cases this
    | call s op k =>
      cases hpc : (w.line (U.proc i) s).conn.pc i with
      | called => exact waits_goes h (.inl hpc)
      | locked | dial | setRaw | setConn => exact inside_goes h (t := i) (by rw [hpc]; rfl)
      | user b =>
        cases b with
        | idle =>
          refine goesOn_put (x := w.prog) (i := i) (.begin w i s op k hx hpc) (fun _ => rfl) rfl (fun u hu => ?_) ?_
          · show rank (if u = i then .user (.called (U.call s op)) else (w.line (U.proc i) s).conn.pc u) = 0
            by_cases e : u = i
            · rw [if_pos e]; rfl
            · rw [if_neg e]; exact hu
          · show (if i = i then .user (.called (U.call s op)) else (w.line (U.proc i) s).conn.pc i) ≠ _
            rw [if_pos rfl, hpc]; nofun
        | called c => exact waits_goes h (.inr ⟨c, hpc⟩)
        | locked | writeDeadline | readDeadline | writing | reading => exact inside_goes h (t := i) (by rw [hpc]; rfl)
        | close | closeRaw | clearRaw | closeChan | clearChan =>
          have := (h.inv (U.proc i) s).tidy.closing i
          rw [hpc] at this
          cases this

end Rewired
end Verif
