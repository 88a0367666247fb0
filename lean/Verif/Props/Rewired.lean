import Verif.Spec.Rewired
import Verif.Cluster.Rewired
import Verif.Props.WiredBreak
import Verif.Props.ReconnUse
/-!
C86: connections that break and are replaced.  The connections in use, seen by themselves, behave as in C85, until one is
replaced by a new one.
-/

namespace Verif
namespace Rewired
open Kv Spec Mc Pool Cluster
open Wired (Setup Ev Ph Sim2 Sound1 wireOf IsCmd Readers)
open Reconn (Excl Gen Tidy)

variable {S M : Type} [DecidableEq S]

/-! ### One client -/

/-- The operations that have returned. -/
def opsOf : List Reconn.Event → List (Call Out × Res Out)
  | [] => []
  | .op c r :: l => (c, r) :: opsOf l
  | _ :: l => opsOf l

theorem opsOf_op (l : List Reconn.Event) (c : Call Out) (r : Res Out) : opsOf (l ++ [.op c r]) = opsOf l ++ [(c, r)] := by
  induction l with
  | nil => rfl
  | cons e l ih => cases e <;> simp [opsOf, ih]

theorem opsOf_reconnect (l : List Reconn.Event) (b : Bool) : opsOf (l ++ [.reconnect b]) = opsOf l := by
  induction l with
  | nil => rfl
  | cons e l ih => cases e <;> simp [opsOf, ih]

/-- Who holds the mutex for an operation. -/
def lockOf (c : Reconn.State Nat) : Option Nat :=
  match c.lock with
  | some t => if (c.pc t).ofOp.inside = true then some t else none
  | none => none

/-- The connection in use, with the operations. -/
def view (c : Reconn.State Nat) : Sched.State Nat where
  lock := lockOf c
  ended := c.cur.ended || !c.cur.isOpen
  werr := c.cur.werr
  sent := c.cur.sent
  got := c.cur.got
  inbox := c.cur.inbox
  pc := fun t => (c.pc t).ofOp
  log := opsOf c.log

theorem ofOp_user {a : Sched.At} (h : (Reconn.At.user a).closing = false) : (Reconn.At.user a).ofOp = a := by
  cases a <;> simp_all [Reconn.At.closing, Reconn.At.ofOp]

theorem inside_ofOp {a : Reconn.At} (h : a.ofOp.inside = true) : a.inside = true := by
  cases a with
  | user a => cases a <;> simp_all [Reconn.At.ofOp, Reconn.At.inside, Sched.At.inside]
  | _ => simp [Reconn.At.ofOp, Sched.At.inside] at h

theorem ofOp_op (a : Reconn.At) : a.ofOp.op = opOf a := by
  cases a with
  | user a => cases a <;> rfl
  | _ => rfl

theorem lockOf_iff {c : Reconn.State Nat} (h : Excl c) (t : Nat) : lockOf c = some t ↔ ((c.pc t).ofOp).inside = true := by
  unfold lockOf
  constructor
  · intro e
    cases hl : c.lock with
    | none => rw [hl] at e; cases e
    | some u =>
      rw [hl] at e
      dsimp only at e
      by_cases hu : (c.pc u).ofOp.inside = true
      · rw [if_pos hu] at e; cases e; exact hu
      · rw [if_neg hu] at e; cases e
  · intro e
    rw [(h t).1 (inside_ofOp e)]
    dsimp only
    rw [if_pos e]

theorem view_excl {c : Reconn.State Nat} (h : Excl c) : Sched.Excl (view c) := fun t => (lockOf_iff h t).symm

theorem view_eq {c : Reconn.State Nat} (hx : Excl c) {X : Sched.State Nat} (hX : Sched.Excl X) (h1 : X.raw = true) (h2 : X.closeCh = true)
    (h3 : X.chanClosed = false) (h4 : X.isOpen = true) (h5 : X.crashed = false) (h6 : X.ended = (c.cur.ended || !c.cur.isOpen))
    (h7 : X.werr = c.cur.werr) (h8 : X.sent = c.cur.sent) (h9 : X.got = c.cur.got) (h10 : X.inbox = c.cur.inbox)
    (h11 : ∀ u, X.pc u = (c.pc u).ofOp) (h12 : X.log = opsOf c.log) : view c = X := by
  have hp : X.pc = fun u => (c.pc u).ofOp := funext h11
  have hl : X.lock = lockOf c := by
    have key : ∀ t, X.lock = some t ↔ lockOf c = some t := fun t => by rw [lockOf_iff hx, ← h11 t]; exact (hX t).symm
    cases hXl : X.lock with
    | none =>
      cases hcl : lockOf c with
      | none => rfl
      | some t => rw [(key t).2 hcl] at hXl; cases hXl
    | some t => exact ((key t).1 hXl).symm
  obtain ⟨lock, raw, closeCh, chanClosed, isOpen, ended, werr, sent, got, inbox, pc, log, crashed⟩ := X
  dsimp only at *
  subst hp hl h1 h2 h3 h4 h5 h6 h7 h8 h9 h10 h12
  rfl

theorem cur_set (c : Reconn.State Nat) (v : Reconn.Conn) : (c.setConn c.conn v).cur = v := by
  show (if c.conn = c.conn then v else c.conns c.conn) = v
  rw [if_pos rfl]

theorem cur_set_ne (c : Reconn.State Nat) {g : Nat} (v : Reconn.Conn) (h : g ≠ c.conn) : (c.setConn g v).cur = c.cur := by
  show (if c.conn = g then v else c.conns c.conn) = c.conns c.conn
  rw [if_neg fun e => h e.symm]

theorem goto_view {c : Reconn.State Nat} {t : Nat} {a : Sched.At} (ha : (Reconn.At.user a).closing = false) (u : Nat) :
    ((view c).goto t a).pc u = ((c.goto t (.user a)).pc u).ofOp := by
  show (if u = t then a else (c.pc u).ofOp) = Reconn.At.ofOp (if u = t then .user a else c.pc u)
  by_cases hu : u = t
  · rw [if_pos hu, if_pos hu, ofOp_user ha]
  · rw [if_neg hu, if_neg hu]

theorem pc_view {c : Reconn.State Nat} {t : Nat} {a : Sched.At} (ha : (Reconn.At.user a).closing = false) (h : c.pc t = .user a) :
    (view c).pc t = a := by
  show (c.pc t).ofOp = a
  rw [h]; exact ofOp_user ha

/-- A new connection, not yet in use. -/
structure Fresh (v : Reconn.Conn) : Prop where
  isOpen : v.isOpen = true
  werr : v.werr = false
  sent : v.sent = []
  got : v.got = []
  inbox : v.inbox = []

/-- The client's side of things is in order. -/
structure LineInv (l : Line) : Prop where
  excl : Excl l.conn
  gen : Gen l.conn
  tidy : Tidy l.conn
  fresh : ∀ g, l.conn.conn < g → Fresh (l.conn.conns g) ∧ l.used g = 0 ∧ l.out g = []

/-- What a step of a client is, seen from the connection in use. -/
inductive Turn (P : Sched.Params Nat) (l : Line) (c' : Reconn.State Nat) : Prop where
  /-- something happens on it -/
  | step : Sched.Step P (view l.conn) (view c') → c'.conn = l.conn.conn → Turn P l c'
  /-- nothing does -/
  | still : view c' = view l.conn → c'.conn = l.conn.conn → Turn P l c'
  /-- it is replaced -/
  | turns (t g : Nat) : l.conn.pc t = .setConn g → c' = { l.conn.ret t (.reconnect true) with conn := g } → Turn P l c'

variable {U : Setup S M}

theorem fresh_set {l : Line} (h : LineInv l) {c : Reconn.State Nat} (hc : c.conn = l.conn.conn) (hcs : c.conns = l.conn.conns) {g : Nat} {v : Reconn.Conn}
    (hv : l.conn.conn < g → Fresh v) : ∀ g', (c.setConn g v).conn < g' → Fresh ((c.setConn g v).conns g') ∧ l.used g' = 0 ∧ l.out g' = [] := by
  intro g' hg'
  have hg' : l.conn.conn < g' := by have : c.conn < g' := hg'; rwa [hc] at this
  refine ⟨?_, (h.fresh g' hg').2⟩
  show Fresh (if g' = g then v else c.conns g')
  by_cases e : g' = g
  · rw [if_pos e]; exact hv (e ▸ hg')
  · rw [if_neg e, hcs]; exact (h.fresh g' hg').1

theorem line_step {s : S} {l : Line} {c' : Reconn.State Nat} (h : LineInv l) (hs : Reconn.Step (params U s l.out) l.conn c') :
    LineInv { l with conn := c' } ∧ (∀ g, g < l.conn.conn → (c'.conns g).sent = (l.conn.conns g).sent)
      ∧ Turn (U.params s (l.out l.conn.conn)) l c' := by
  have hx := Reconn.excl_step h.excl hs
  have hg := Reconn.gen_step h.excl h.gen hs
  have ht := Reconn.tidy_step (fun _ h => h) h.excl h.gen h.tidy hs
  have vx := view_excl h.excl
  have inv : (∀ g, c'.conn < g → Fresh (c'.conns g) ∧ l.used g = 0 ∧ l.out g = []) → LineInv { l with conn := c' } :=
    fun hf => ⟨hx, hg, ht, hf⟩
  have bad : ∀ {t}, (l.conn.pc t).closing = true → False := fun {t} hc => by rw [h.tidy.closing t] at hc; cases hc
  -- who works with the connection in use has one
  have raw : ∀ {t a}, l.conn.pc t = .user a → (Reconn.At.user a).inside = true → l.conn.raw ≠ none := fun {t a} hp hi e => by
    have hq : ∀ u, (l.conn.pc u).placed = none := by
      intro u
      cases hu : (l.conn.pc u).placed with
      | none => rfl
      | some g =>
        have := h.excl.one (t := t) (by rw [hp]; exact hi) (Reconn.At.inside_of_past (Reconn.At.past_of_placed hu))
        rw [this, hp] at hu; cases hu
    rw [h.tidy.inUse hq] at e; cases e
  -- nothing is sent on old connections
  have olds : ∀ {c : Reconn.State Nat} {v : Reconn.Conn}, c.conns = l.conn.conns → ∀ g, g < l.conn.conn →
      ((c.setConn l.conn.conn v).conns g).sent = (l.conn.conns g).sent := fun {c v} hc g hg => by
    show (if g = l.conn.conn then v else c.conns g).sent = _
    rw [if_neg (by omega), hc]
  have fresh := h.fresh
  -- steps of an operation that leave the connection as it is
  have goes : ∀ {t : Nat} {a : Sched.At} {X : Sched.State Nat}, (Reconn.At.user a).closing = false → c'.pc = (l.conn.goto t (.user a)).pc →
      c'.conns = l.conn.conns → c'.conn = l.conn.conn → Sched.Step (U.params s (l.out l.conn.conn)) (view l.conn) X →
      X.pc = ((view l.conn).goto t a).pc → X.raw = true → X.closeCh = true → X.chanClosed = false → X.isOpen = true → X.crashed = false →
      X.ended = (view l.conn).ended → X.werr = (view l.conn).werr → X.sent = (view l.conn).sent → X.got = (view l.conn).got →
      X.inbox = (view l.conn).inbox → X.log = opsOf c'.log →
      LineInv { l with conn := c' } ∧ (∀ g, g < l.conn.conn → (c'.conns g).sent = (l.conn.conns g).sent) ∧ Turn (U.params s (l.out l.conn.conn)) l c' := by
    intro t a X ha h1 h2 h3 hst h4 r1 r2 r3 r4 r5 r6 r7 r8 r9 r10 r11
    have hcur : c'.cur = l.conn.cur := by show c'.conns c'.conn = _; rw [h2, h3]; rfl
    refine ⟨inv fun g hg' => by rw [h2]; exact fresh g (by rw [← h3]; exact hg'), fun g _ => by rw [h2], .step ?_ h3⟩
    rw [view_eq hx (Sched.excl_step vx hst) r1 r2 r3 r4 r5 (by rw [hcur]; exact r6) (by rw [hcur]; exact r7) (by rw [hcur]; exact r8)
      (by rw [hcur]; exact r9) (by rw [hcur]; exact r10) (fun u => by rw [h4, h1]; exact goto_view ha u) r11]
    exact hst
  -- steps of an operation that change the connection
  have does : ∀ {t : Nat} {a : Sched.At} {X : Sched.State Nat} {v : Reconn.Conn} {c : Reconn.State Nat}, c' = c.setConn l.conn.conn v → c.conn = l.conn.conn →
      (Reconn.At.user a).closing = false → c.pc = (l.conn.goto t (.user a)).pc → c.conns = l.conn.conns →
      Sched.Step (U.params s (l.out l.conn.conn)) (view l.conn) X →
      X.pc = ((view l.conn).goto t a).pc → X.raw = true → X.closeCh = true → X.chanClosed = false → X.isOpen = true → X.crashed = false →
      X.ended = (v.ended || !v.isOpen) → X.werr = v.werr → X.sent = v.sent → X.got = v.got → X.inbox = v.inbox → X.log = opsOf c'.log →
      LineInv { l with conn := c' } ∧ (∀ g, g < l.conn.conn → (c'.conns g).sent = (l.conn.conns g).sent) ∧ Turn (U.params s (l.out l.conn.conn)) l c' := by
    intro t a X v c hc h3 ha h1 h2 hst h4 r1 r2 r3 r4 r5 r6 r7 r8 r9 r10 r11
    have hcur : c'.cur = v := by rw [hc, ← h3]; exact cur_set c v
    refine ⟨inv (by rw [hc]; exact fresh_set h h3 h2 fun e => absurd e (Nat.lt_irrefl _)), by rw [hc]; exact olds h2, .step ?_ (by rw [hc]; exact h3)⟩
    rw [view_eq hx (Sched.excl_step vx hst) r1 r2 r3 r4 r5 (by rw [hcur]; exact r6) (by rw [hcur]; exact r7) (by rw [hcur]; exact r8)
      (by rw [hcur]; exact r9) (by rw [hcur]; exact r10) (fun u => by rw [h4, hc]; show _ = (c.pc u).ofOp; rw [h1]; exact goto_view ha u) r11]
    exact hst
  -- steps of Reconnect
  have rests : ∀ {t : Nat} {a : Reconn.At}, a.ofOp = .idle → (l.conn.pc t).ofOp = .idle → c'.pc = (l.conn.goto t a).pc →
      c'.conns = l.conn.conns → c'.conn = l.conn.conn → opsOf c'.log = opsOf l.conn.log →
      LineInv { l with conn := c' } ∧ (∀ g, g < l.conn.conn → (c'.conns g).sent = (l.conn.conns g).sent) ∧ Turn (U.params s (l.out l.conn.conn)) l c' := by
    intro t a ha h0 h1 h2 h3 h4
    have hcur : c'.cur = l.conn.cur := by show c'.conns c'.conn = _; rw [h2, h3]; rfl
    refine ⟨inv fun g hg' => by rw [h2]; exact fresh g (by rw [← h3]; exact hg'), fun g _ => by rw [h2], .still ?_ h3⟩
    refine view_eq hx vx rfl rfl rfl rfl rfl (by rw [hcur]; rfl) (by rw [hcur]; rfl) (by rw [hcur]; rfl) (by rw [hcur]; rfl) (by rw [hcur]; rfl) (fun u => ?_) h4.symm
    show (l.conn.pc u).ofOp = (c'.pc u).ofOp
    rw [h1]
    show _ = Reconn.At.ofOp (if u = t then a else l.conn.pc u)
    by_cases hu : u = t
    · rw [if_pos hu, ha, hu, h0]
    · rw [if_neg hu]
  cases hs with
  | call t c h1 h2 =>
    exact goes (t := t) (a := .called c) rfl rfl rfl rfl (.call _ t c (pc_view rfl h1) h2) rfl rfl rfl rfl rfl rfl rfl rfl rfl rfl rfl rfl
  | lock t c h1 h2 =>
    refine goes (t := t) (a := .locked c) rfl rfl rfl rfl (.lock _ t c (pc_view rfl h1) ?_) rfl rfl rfl rfl rfl rfl rfl rfl rfl rfl rfl rfl
    show lockOf l.conn = none
    unfold lockOf; rw [h2]
  | refuse t c h1 h2 h3 => exact absurd h3 (raw h1 rfl)
  | pass t c h1 h2 =>
    exact goes (t := t) (a := .writeDeadline c) rfl rfl rfl rfl (.pass _ t c (pc_view rfl h1) fun _ => rfl) rfl rfl rfl rfl rfl rfl rfl rfl rfl rfl rfl rfl
  | writeDeadlineNil t c h1 h2 h3 => exact absurd h3 (raw h1 rfl)
  | writeDeadline t c h1 h2 h3 =>
    exact goes (t := t) (a := .readDeadline c) rfl rfl rfl rfl (.writeDeadline _ t c (pc_view rfl h1) h2 rfl) rfl rfl rfl rfl rfl rfl rfl rfl rfl rfl rfl rfl
  | readDeadlineNil t c h1 h2 => exact absurd h2 (raw h1 rfl)
  | readDeadline t c w h1 h2 h3 =>
    exact goes (t := t) (a := .writing c w) rfl rfl rfl rfl (.readDeadline _ t c w (pc_view rfl h1) rfl h3) rfl rfl rfl rfl rfl rfl rfl rfl rfl rfl rfl rfl
  | noDeadline t c w h1 h2 h3 =>
    exact goes (t := t) (a := .writing c w) rfl rfl rfl rfl (.noDeadline _ t c w (pc_view rfl h1) h2 h3) rfl rfl rfl rfl rfl rfl rfl rfl rfl rfl rfl rfl
  | unencodable t c e h1 h2 =>
    refine goes (t := t) (a := .idle) rfl rfl rfl rfl (.unencodable _ t c e ?_ h2) rfl rfl rfl rfl rfl rfl rfl rfl rfl rfl rfl (opsOf_op _ _ _).symm
    rcases h1 with ⟨h1, h3⟩ | ⟨h1, h3⟩
    · exact .inl ⟨pc_view rfl h1, h3⟩
    · exact .inr ⟨pc_view rfl h1, rfl⟩
  | unencodablePanic t c h1 h2 =>
    refine goes (t := t) (a := .idle) rfl rfl rfl rfl (.unencodablePanic _ t c ?_ h2) rfl rfl rfl rfl rfl rfl rfl rfl rfl rfl rfl (opsOf_op _ _ _).symm
    rcases h1 with ⟨h1, h3⟩ | ⟨h1, h3⟩
    · exact .inl ⟨pc_view rfl h1, h3⟩
    · exact .inr ⟨pc_view rfl h1, rfl⟩
  | write t c x y h1 h2 h3 =>
    exact does (t := t) (a := .writing c y) rfl rfl rfl rfl rfl (.write _ t c x y (pc_view rfl h1) rfl h3) rfl rfl rfl rfl rfl rfl rfl rfl rfl rfl rfl rfl
  | writeFails t c x h1 h2 =>
    refine does (t := t) (a := .idle) rfl rfl rfl rfl rfl (.writeFails _ t c x (pc_view rfl h1) ?_) rfl rfl rfl rfl rfl rfl rfl rfl rfl rfl rfl (opsOf_op _ _ _).symm
    rcases h2 with h2 | h2 | h2 | h2
    · exact .inr (.inl (by show (l.conn.cur.ended || !l.conn.cur.isOpen) = true; rw [h2]; simp))
    · exact .inr (.inl (by show (l.conn.cur.ended || !l.conn.cur.isOpen) = true; rw [h2]; rfl))
    · exact .inr (.inr (.inl h2))
    · exact .inr (.inr (.inr h2))
  | written t c h1 h2 =>
    exact goes (t := t) (a := .reading c) rfl rfl rfl rfl (.written _ t c (pc_view rfl h1) h2) rfl rfl rfl rfl rfl rfl rfl rfl rfl rfl rfl rfl
  | arrive g x y h1 h2 h3 h4 =>
    have h4 : l.out g = (l.conn.conns g).got ++ x ++ y := h4
    refine ⟨inv (fresh_set h rfl rfl fun e => ?_), fun g' hg' => ?_, ?_⟩
    · obtain ⟨f1, -, f2⟩ := fresh g e
      rw [f2] at h4
      obtain ⟨h5, -⟩ := List.append_eq_nil_iff.1 h4.symm
      obtain ⟨-, rfl⟩ := List.append_eq_nil_iff.1 h5
      exact ⟨f1.isOpen, f1.werr, f1.sent, by show _ ++ [] = []; rw [List.append_nil]; exact f1.got, by show _ ++ [] = []; rw [List.append_nil]; exact f1.inbox⟩
    · show (if g' = g then { l.conn.conns g with got := (l.conn.conns g).got ++ x, inbox := (l.conn.conns g).inbox ++ x } else l.conn.conns g').sent = _
      by_cases e : g' = g
      · rw [if_pos e, e]
      · rw [if_neg e]
    · by_cases e : g = l.conn.conn
      · subst e
        have hst : Sched.Step (U.params s (l.out l.conn.conn)) (view l.conn) _ := .arrive (view l.conn) x y rfl (by
          show (l.conn.cur.ended || !l.conn.cur.isOpen) = false
          rw [show l.conn.cur.ended = false from h3, show l.conn.cur.isOpen = true from h2]; rfl) h4
        refine .step ?_ rfl
        rw [view_eq hx (Sched.excl_step vx hst) rfl rfl rfl rfl rfl (by rw [cur_set]; rfl) (by rw [cur_set]; rfl) (by rw [cur_set]; rfl) (by rw [cur_set]; rfl)
          (by rw [cur_set]; rfl) (fun _ => rfl) rfl]
        exact hst
      · exact .still (view_eq hx vx rfl rfl rfl rfl rfl (by rw [cur_set_ne _ _ e]; rfl) (by rw [cur_set_ne _ _ e]; rfl) (by rw [cur_set_ne _ _ e]; rfl)
          (by rw [cur_set_ne _ _ e]; rfl) (by rw [cur_set_ne _ _ e]; rfl) (fun _ => rfl) rfl) rfl
  | hangUp g h1 =>
    refine ⟨inv (fresh_set h rfl rfl fun e => ?_), fun g' hg' => ?_, ?_⟩
    · obtain ⟨f1, -, -⟩ := fresh g e
      exact ⟨f1.isOpen, f1.werr, f1.sent, f1.got, f1.inbox⟩
    · show (if g' = g then { l.conn.conns g with ended := true } else l.conn.conns g').sent = _
      by_cases e : g' = g
      · rw [if_pos e, e]
      · rw [if_neg e]
    · by_cases e : g = l.conn.conn
      · subst e
        have hst : Sched.Step (U.params s (l.out l.conn.conn)) (view l.conn) _ := .hangUp (view l.conn)
        refine .step ?_ rfl
        rw [view_eq hx (Sched.excl_step vx hst) rfl rfl rfl rfl rfl (by rw [cur_set]; rfl) (by rw [cur_set]; rfl) (by rw [cur_set]; rfl) (by rw [cur_set]; rfl)
          (by rw [cur_set]; rfl) (fun _ => rfl) rfl]
        exact hst
      · exact .still (view_eq hx vx rfl rfl rfl rfl rfl (by rw [cur_set_ne _ _ e]; rfl) (by rw [cur_set_ne _ _ e]; rfl) (by rw [cur_set_ne _ _ e]; rfl)
          (by rw [cur_set_ne _ _ e]; rfl) (by rw [cur_set_ne _ _ e]; rfl) (fun _ => rfl) rfl) rfl
  | read t c h1 h2 =>
    exact does (t := t) (a := .idle) rfl rfl rfl rfl rfl (.read _ t c (pc_view rfl h1) h2) rfl rfl rfl rfl rfl rfl rfl rfl rfl rfl rfl (opsOf_op _ _ _).symm
  | readFails t c h1 h2 h3 =>
    refine does (t := t) (a := .idle) rfl rfl rfl rfl rfl (.readFails _ t c (pc_view rfl h1) h2 (.inr ?_)) rfl rfl rfl rfl rfl rfl rfl rfl rfl rfl rfl (opsOf_op _ _ _).symm
    show (l.conn.cur.ended || !l.conn.cur.isOpen) = true
    rcases h3 with h3 | h3 <;> rw [h3] <;> simp
  | readTimeout t c h1 h2 h3 h4 => cases h4
  | callClose t h1 h2 => exact h2.elim
  | closeAgain t h1 => exact (bad (t := t) (by rw [h1]; rfl)).elim
  | closeGo t h1 => exact (bad (t := t) (by rw [h1]; rfl)).elim
  | closeRawNil t h1 => exact (bad (t := t) (by rw [h1]; rfl)).elim
  | closeRaw t g h1 => exact (bad (t := t) (by rw [h1]; rfl)).elim
  | clearRaw t h1 => exact (bad (t := t) (by rw [h1]; rfl)).elim
  | closeChanPanic t h1 => exact (bad (t := t) (by rw [h1]; rfl)).elim
  | closeChan t h1 => exact (bad (t := t) (by rw [h1]; rfl)).elim
  | clearChan t h1 => exact (bad (t := t) (by rw [h1]; rfl)).elim
  | callReconnect t h1 h2 => exact rests (t := t) (a := .called) rfl (by rw [h1]; rfl) rfl rfl rfl rfl
  | lockReconnect t h1 h2 => exact rests (t := t) (a := .locked) rfl (by rw [h1]; rfl) rfl rfl rfl rfl
  | noRaw t h1 h2 => exact rests (t := t) (a := .dial) rfl (by rw [h1]; rfl) rfl rfl rfl rfl
  | shut t g h1 h2 h3 =>
    have hgc : g = l.conn.conn := by
      have hq : ∀ u, (l.conn.pc u).placed = none := by
        intro u
        cases hu : (l.conn.pc u).placed with
        | none => rfl
        | some g =>
          have := h.excl.one (t := t) (by rw [h1]; rfl) (Reconn.At.inside_of_past (Reconn.At.past_of_placed hu))
          rw [this, h1] at hu; cases hu
      have := h.tidy.inUse hq
      rw [h2] at this
      exact Option.some.inj this
    subst hgc
    refine ⟨inv (fresh_set h rfl rfl fun e => absurd e (Nat.lt_irrefl _)), olds rfl, ?_⟩
    have hst : Sched.Step (U.params s (l.out l.conn.conn)) (view l.conn) _ := .hangUp (view l.conn)
    have hcur : ((l.conn.goto t .dial).setConn l.conn.conn { l.conn.conns l.conn.conn with isOpen := false }).cur = { l.conn.cur with isOpen := false } :=
      cur_set (l.conn.goto t .dial) _
    refine .step ?_ rfl
    rw [view_eq hx (Sched.excl_step vx hst) rfl rfl rfl rfl rfl (by rw [hcur]; simp) (by rw [hcur]; rfl) (by rw [hcur]; rfl) (by rw [hcur]; rfl)
      (by rw [hcur]; rfl) (fun u => ?_) rfl]
    · exact hst
    · show (l.conn.pc u).ofOp = Reconn.At.ofOp (if u = t then .dial else l.conn.pc u)
      by_cases hu : u = t
      · rw [if_pos hu, hu, h1]; rfl
      · rw [if_neg hu]
  | shutFails t g h1 h2 h3 => exact rests (t := t) (a := .user .idle) rfl (by rw [h1]; rfl) rfl rfl rfl (opsOf_reconnect _ _)
  | dial t h1 => exact rests (t := t) (a := .setRaw l.conn.dialled) rfl (by rw [h1]; rfl) rfl rfl rfl rfl
  | dialFails t h1 => exact rests (t := t) (a := .user .idle) rfl (by rw [h1]; rfl) rfl rfl rfl (opsOf_reconnect _ _)
  | setRaw t g h1 => exact rests (t := t) (a := .setConn g) rfl (by rw [h1]; rfl) rfl rfl rfl rfl
  | setConn t g h1 =>
    refine ⟨inv fun g' hg' => ?_, fun _ _ => rfl, .turns t g h1 rfl⟩
    have := (h.gen.next t g (by rw [h1]; rfl)).1
    have hg' : g < g' := hg'
    exact fresh g' (by omega)

end Rewired
end Verif
