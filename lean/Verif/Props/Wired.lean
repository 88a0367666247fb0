import Verif.Spec.Wired
import Verif.Props.Sched
/-!
C84: a call of a pool method on a shared connection to memcached can be taken to happen at one moment.
-/

namespace Verif
namespace Wired
open Kv Spec Mc Pool Cluster
open Sched (Excl)

variable {S M : Type} [DecidableEq S]

/-! ### One connection -/

/-- What goes on on a connection: nothing; a request (of goroutine `t`, the call `c`) is being sent and was not
carried out; it was carried out and the result will be `r`. -/
inductive Phase (l : Line) : Option (Nat × Call Out × Option (Res Out)) → Prop where
  | quiet : (∀ t, (l.conn.pc t).talking = none) → l.used = l.conn.sent.length → l.conn.inbox = [] →
      l.conn.got = l.out → Phase l none
  | asking (t : Nat) (c : Call Out) (x todo : Bytes) : (l.conn.pc t).talking = some (c, todo) → c.wire = .ok (x ++ todo) →
      l.used + x.length = l.conn.sent.length → l.conn.sent.drop l.used = x → l.conn.inbox = [] → l.conn.got = l.out →
      Phase l (some (t, c, none))
  | told (t : Nat) (c : Call Out) (r : Res Out) (rest : Bytes) : (l.conn.pc t).talking = some (c, []) →
      l.used = l.conn.sent.length → l.out = l.conn.got ++ rest → c.rd (l.conn.inbox ++ rest) = (r, []) → r ≠ .err .io →
      Phase l (some (t, c, some r))

/-- The connection is in order. -/
structure Good (l : Line) : Prop where
  excl : Excl l.conn
  raw : l.conn.raw = true
  isOpen : l.conn.isOpen = true
  werr : l.conn.werr = false
  idle : ∀ t, (l.conn.pc t).op = none → l.conn.pc t = .idle

/-- Nobody closes anything, requests can be composed. -/
structure Fair (P : Sched.Params Nat) (c : Sched.State Nat) (out : Bytes) : Prop where
  resp : ∀ x, P.resp x = out
  closers : ∀ t, ¬ P.closers t
  late : P.late = false
  wire : ∀ t c', (c.pc t).op = some c' → (∃ w, c'.wire = .ok w ∧ w ≠ []) ∧ Stable c'.rd ∧ c'.rd [] = (.err .io, [])

/-- What a step on a connection can do: nobody's call ends and the phase stays the same or a request begins, or a call
ends with the result that was told. -/
inductive Does (l : Line) (c' : Sched.State Nat) : Prop where
  | stays : (∀ t, (c'.pc t).op = (l.conn.pc t).op) → c'.log = l.conn.log →
      (∀ ph, Phase l ph → Phase { l with conn := c' } ph) → Does l c'
  | begins (t : Nat) (c : Call Out) : (∀ t, (c'.pc t).op = (l.conn.pc t).op) → c'.log = l.conn.log →
      Phase l none → (l.conn.pc t).op = some c →
      Phase { l with conn := c' } (some (t, c, none)) → Does l c'
  | ends (t : Nat) (c : Call Out) (r : Res Out) : Phase l (some (t, c, some r)) → (l.conn.pc t).op = some c →
      (∀ u, u ≠ t → c'.pc u = l.conn.pc u) → c'.pc t = .idle →
      c'.log = l.conn.log ++ [(c, r)] → Phase { l with conn := c' } none → Does l c'
  | calls (t : Nat) : (l.conn.pc t).op = none → (c'.pc t).op ≠ none → c'.log = l.conn.log → Does l c'

theorem op_of_talking {a : Sched.At} {c : Call Out} {x : Bytes} (h : a.talking = some (c, x)) : a.op = some c := by
  cases a <;> simp_all [Sched.At.talking, Sched.At.op]

theorem phase_talker {l : Line} {t : Nat} {c : Call Out} {o : Option (Res Out)} (h : Phase l (some (t, c, o))) :
    ∃ x, (l.conn.pc t).talking = some (c, x) := by
  cases h with
  | asking _ _ x todo h1 => exact ⟨todo, h1⟩
  | told _ _ r rest h1 => exact ⟨[], h1⟩

/-- Of one phase only. -/
theorem phase_unique {l : Line} (hx : Excl l.conn) {a b} (ha : Phase l a) (hb : Phase l b) (hw : ∀ t c, (l.conn.pc t).op = some c → ∀ w, c.wire = .ok w → w ≠ []) : a = b := by
  have alone : ∀ t u, (l.conn.pc t).talking ≠ none → (l.conn.pc u).talking ≠ none → t = u := fun t u h1 h2 => by
    have e1 := (hx t).1 (Sched.At.inside_of_talking h1)
    have e2 := (hx u).1 (Sched.At.inside_of_talking h2)
    rw [e1] at e2
    exact Option.some.inj e2
  cases a with
  | none =>
    cases b with
    | none => rfl
    | some b =>
      obtain ⟨t, c, o⟩ := b
      obtain ⟨x, h⟩ := phase_talker hb
      cases ha with
      | quiet h1 => rw [h1 t] at h; cases h
  | some a =>
    obtain ⟨t, c, o⟩ := a
    obtain ⟨x, h⟩ := phase_talker ha
    cases b with
    | none => cases hb with
      | quiet h1 => rw [h1 t] at h; cases h
    | some b =>
      obtain ⟨u, d, o'⟩ := b
      obtain ⟨y, h'⟩ := phase_talker hb
      have := alone t u (by rw [h]; simp) (by rw [h']; simp)
      subst this
      rw [h] at h'
      cases h'
      cases ha with
      | asking _ _ x1 todo g1 g2 g3 g4 g5 g6 =>
        cases hb with
        | asking => rfl
        | told _ _ r rest k1 k2 =>
          exfalso
          rw [g1] at k1
          cases k1
          have : x1 = [] := List.length_eq_zero_iff.1 (by omega)
          exact hw t c (op_of_talking g1) _ g2 (by rw [this]; rfl)
      | told _ _ r rest g1 g2 g3 g4 g5 =>
        cases hb with
        | asking _ _ x1 todo k1 k2 k3 =>
          exfalso
          rw [g1] at k1
          cases k1
          have : x1 = [] := List.length_eq_zero_iff.1 (by omega)
          exact hw t c (op_of_talking g1) _ k2 (by rw [this]; rfl)
        | told _ _ r' rest' k1 k2 k3 k4 k5 =>
          have : rest = rest' := List.append_cancel_left (g3.symm.trans k3)
          subst this
          rw [g4] at k4
          cases k4
          rfl

theorem phase_frame {l : Line} {c' : Sched.State Nat} (h : ∀ t, (c'.pc t).talking = (l.conn.pc t).talking) (h1 : c'.sent = l.conn.sent)
    (h2 : c'.inbox = l.conn.inbox) (h3 : c'.got = l.conn.got) {ph} (hp : Phase l ph) : Phase { l with conn := c' } ph := by
  cases hp with
  | quiet g1 g2 g3 g4 => exact .quiet (fun t => (h t).trans (g1 t)) (g2.trans (by rw [← h1])) (h2.trans g3) (h3.trans g4)
  | asking t c x todo g1 g2 g3 g4 g5 g6 =>
    exact .asking t c x todo ((h t).trans g1) g2 (by rw [← h1] at g3; exact g3) (by rw [← h1] at g4; exact g4) (h2.trans g5) (h3.trans g6)
  | told t c r rest g1 g2 g3 g4 g5 =>
    exact .told t c r rest ((h t).trans g1) (by rw [← h1] at g2; exact g2) (by rw [← h3] at g3; exact g3) (by rw [← h2] at g4; exact g4) g5

theorem goto_op (s : Sched.State Nat) (t u : Nat) (a : Sched.At) (h : a.op = (s.pc t).op) : ((s.goto t a).pc u).op = (s.pc u).op := by
  rw [Sched.goto_pc]
  by_cases hu : u = t
  · subst hu; rw [if_pos rfl]; exact h
  · rw [if_neg hu]

theorem goto_talking (s : Sched.State Nat) (t u : Nat) (a : Sched.At) (h : a.talking = (s.pc t).talking) :
    ((s.goto t a).pc u).talking = (s.pc u).talking := by
  rw [Sched.goto_pc]
  by_cases hu : u = t
  · subst hu; rw [if_pos rfl]; exact h
  · rw [if_neg hu]

theorem goto_idle {s : Sched.State Nat} (hi : ∀ t, (s.pc t).op = none → s.pc t = .idle) (t : Nat) (a : Sched.At) (ha : a.op = none → a = .idle) :
    ∀ u, ((s.goto t a).pc u).op = none → (s.goto t a).pc u = .idle := by
  intro u
  rw [Sched.goto_pc]
  by_cases hu : u = t
  · subst hu; rw [if_pos rfl]; exact ha
  · rw [if_neg hu]; exact hi u

/-- A goroutine inside the mutex that is not talking: nobody is. -/
theorem phase_quiet {l : Line} (hx : Excl l.conn) {t : Nat} (ht : (l.conn.pc t).inside = true) (hn : (l.conn.pc t).talking = none)
    {ph} (hp : Phase l ph) : ph = none := by
  cases ph with
  | none => rfl
  | some a =>
    obtain ⟨u, c, o⟩ := a
    obtain ⟨x, h⟩ := phase_talker hp
    have h1 := (hx u).1 (Sched.At.inside_of_talking (by rw [h]; simp))
    have h2 := (hx t).1 ht
    rw [h1] at h2
    cases h2
    rw [h] at hn
    cases hn

/-- The goroutine that talks is the one of the phase. -/
theorem phase_of {l : Line} (hx : Excl l.conn) {t : Nat} {c : Call Out} {x : Bytes} (ht : (l.conn.pc t).talking = some (c, x))
    {ph} (hp : Phase l ph) : ∃ o, ph = some (t, c, o) := by
  cases ph with
  | none => cases hp with
    | quiet h1 => rw [h1 t] at ht; cases ht
  | some a =>
    obtain ⟨u, d, o⟩ := a
    obtain ⟨y, h⟩ := phase_talker hp
    have h1 := (hx u).1 (Sched.At.inside_of_talking (by rw [h]; simp))
    have h2 := (hx t).1 (Sched.At.inside_of_talking (by rw [ht]; simp))
    rw [h1] at h2
    cases h2
    rw [h] at ht
    cases ht
    exact ⟨o, rfl⟩

theorem begins_of {P : Sched.Params Nat} {l : Line} (hg : Good l) (hf : Fair P l.conn l.out) {ph} (hp : Phase l ph) {t : Nat} {c : Call Out} {w : Bytes}
    (ht : (l.conn.pc t).inside = true) (hn : (l.conn.pc t).talking = none) (ho : (l.conn.pc t).op = some c) (hw : c.wire = .ok w) :
    Does l (l.conn.goto t (.writing c w)) := by
  have := phase_quiet hg.excl ht hn hp
  subst this
  refine .begins t c (fun u => goto_op _ _ _ _ ho.symm) rfl hp ho ?_
  cases hp with
  | quiet h1 h2 h3 h4 =>
    refine .asking t c [] w ?_ hw h2 ?_ h3 h4
    · show ((l.conn.goto t (.writing c w)).pc t).talking = _
      rw [Sched.goto_pc, if_pos rfl]; rfl
    · show l.conn.sent.drop l.used = []
      rw [h2]; exact List.drop_length

theorem stays_of {l : Line} {t : Nat} {a : Sched.At} (ho : a.op = (l.conn.pc t).op) (hn : a.talking = (l.conn.pc t).talking) :
    Does l (l.conn.goto t a) :=
  .stays (fun u => goto_op _ _ _ _ ho) rfl fun _ hp => phase_frame (fun u => goto_talking _ _ _ _ hn) rfl rfl rfl hp

theorem sched_does {P : Sched.Params Nat} {l : Line} {c' : Sched.State Nat} (hs : Sched.Step P l.conn c')
    (hg : Good l) (hf : Fair P l.conn l.out) {ph} (hp : Phase l ph) (he : c'.ended = false) :
    Good { l with conn := c' } ∧ Does l c' := by
  have hx := Sched.excl_step hg.excl hs
  obtain ⟨conn, used, out⟩ := l
  have gI := hg.idle
  have gR := hg.raw
  have gO := hg.isOpen
  have gW := hg.werr
  dsimp only at *
  cases hs with
  | call t c h1 h2 =>
    refine ⟨⟨hx, gR, gO, gW, goto_idle gI _ _ (by simp [Sched.At.op])⟩, .calls t (by show (conn.pc t).op = none; rw [h1]; rfl) ?_ ?_⟩
    · rw [Sched.goto_pc, if_pos rfl]; simp [Sched.At.op]
    · rfl
  | lock t c h1 h2 =>
    refine ⟨⟨hx, gR, gO, gW, goto_idle gI _ _ (by simp [Sched.At.op])⟩, ?_⟩
    exact .stays (fun u => goto_op conn t u (.locked c) (by rw [h1]; rfl)) rfl fun _ hp =>
      phase_frame (c' := { conn.goto t (.locked c) with lock := some t })
        (fun u => goto_talking conn t u (.locked c) (by rw [h1]; rfl)) rfl rfl rfl hp
  | refuse t c h1 h2 h3 => rw [gR] at h3; cases h3
  | pass t c h1 h2 =>
    exact ⟨⟨hx, gR, gO, gW, goto_idle gI _ _ (by simp [Sched.At.op])⟩, stays_of (by show _ = (conn.pc t).op; rw [h1]; rfl) (by show _ = (conn.pc t).talking; rw [h1]; rfl)⟩
  | writeDeadlineNil t c h1 h2 h3 => rw [gR] at h3; cases h3
  | writeDeadline t c h1 h2 h3 =>
    exact ⟨⟨hx, gR, gO, gW, goto_idle gI _ _ (by simp [Sched.At.op])⟩, stays_of (by show _ = (conn.pc t).op; rw [h1]; rfl) (by show _ = (conn.pc t).talking; rw [h1]; rfl)⟩
  | readDeadlineNil t c h1 h2 => rw [gR] at h2; cases h2
  | readDeadline t c w h1 h2 h3 =>
    exact ⟨⟨hx, gR, gO, gW, goto_idle gI _ _ (by simp [Sched.At.op])⟩, begins_of hg hf hp (by show (conn.pc t).inside = true; rw [h1]; rfl) (by show (conn.pc t).talking = none; rw [h1]; rfl) (by show (conn.pc t).op = _; rw [h1]; rfl) h3⟩
  | noDeadline t c w h1 h2 h3 =>
    exact ⟨⟨hx, gR, gO, gW, goto_idle gI _ _ (by simp [Sched.At.op])⟩, begins_of hg hf hp (by show (conn.pc t).inside = true; rw [h1]; rfl) (by show (conn.pc t).talking = none; rw [h1]; rfl) (by show (conn.pc t).op = _; rw [h1]; rfl) h3⟩
  | unencodable t c e h1 h2 =>
    obtain ⟨⟨w, hw, -⟩, -⟩ := hf.wire t c (by rcases h1 with ⟨h1, -⟩ | ⟨h1, -⟩ <;> rw [h1] <;> rfl)
    rw [hw] at h2; cases h2
  | unencodablePanic t c h1 h2 =>
    obtain ⟨⟨w, hw, -⟩, -⟩ := hf.wire t c (by rcases h1 with ⟨h1, -⟩ | ⟨h1, -⟩ <;> rw [h1] <;> rfl)
    rw [hw] at h2; cases h2
  | write t c x y h1 h2 h3 =>
    refine ⟨⟨hx, gR, gO, gW, goto_idle gI t (.writing c y) (by simp [Sched.At.op])⟩, ?_⟩
    refine .stays (fun u => goto_op conn t u (.writing c y) (by rw [h1]; rfl)) rfl fun ph' hp' => ?_
    obtain ⟨o, ho⟩ := phase_of hg.excl (t := t) (c := c) (x := x ++ y) (by show (conn.pc t).talking = _; rw [h1]; rfl) hp'
    subst ho
    have htalk : (({ conn.goto t (.writing c y) with sent := conn.sent ++ x } : Sched.State Nat).pc t).talking = some (c, y) := by
      show ((conn.goto t (.writing c y)).pc t).talking = _
      rw [Sched.goto_pc, if_pos rfl]; rfl
    cases hp' with
    | asking _ _ z todo g1 g2 g3 g4 g5 g6 =>
      have e : todo = x ++ y := by
        have : (conn.pc t).talking = some (c, x ++ y) := by rw [h1]; rfl
        rw [show (conn.pc t).talking = some (c, todo) from g1] at this
        injection this with this; injection this
      subst e
      refine .asking t c (z ++ x) y htalk (by rw [g2]; simp) (by show used + _ = (conn.sent ++ x).length; simp only [List.length_append]; dsimp only at g3; omega) ?_ g5 g6
      show (conn.sent ++ x).drop used = z ++ x
      dsimp only at g3 g4
      rw [List.drop_append_of_le_length (by omega), g4]
    | told _ _ r rest g1 g2 g3 g4 g5 =>
      have e : ([] : Bytes) = x ++ y := by
        have : (conn.pc t).talking = some (c, x ++ y) := by rw [h1]; rfl
        rw [show (conn.pc t).talking = some (c, []) from g1] at this
        injection this with this; injection this
      obtain ⟨rfl, rfl⟩ := List.append_eq_nil_iff.1 e.symm
      exact .told t c r rest htalk (by show used = (conn.sent ++ []).length; rw [List.append_nil]; exact g2) g3 g4 g5
  | writeFails t c x h1 h2 =>
    rcases h2 with h2 | h2 | h2 | ⟨-, h2⟩
    · rw [gO] at h2; cases h2
    · rw [show conn.ended = false from he] at h2; cases h2
    · rw [gW] at h2; cases h2
    · rw [hf.late] at h2; cases h2
  | written t c h1 h2 =>
    exact ⟨⟨hx, gR, gO, gW, goto_idle gI _ _ (by simp [Sched.At.op])⟩, stays_of (by show _ = (conn.pc t).op; rw [h1]; rfl) (by show _ = (conn.pc t).talking; rw [h1]; rfl)⟩
  | arrive x y h1 h2 h3 =>
    refine ⟨⟨hx, gR, gO, gW, gI⟩, ?_⟩
    rw [hf.resp] at h3
    refine .stays (fun _ => rfl) rfl fun ph' hp' => ?_
    cases hp' with
    | quiet g1 g2 g3 g4 =>
      have e : x ++ y = [] := by
        dsimp only at g4; rw [← g4, List.append_assoc] at h3
        exact (List.append_cancel_left (by rw [List.append_nil]; exact h3 : conn.got ++ [] = conn.got ++ (x ++ y))).symm
      obtain ⟨rfl, rfl⟩ := List.append_eq_nil_iff.1 e
      exact .quiet g1 g2 (by show conn.inbox ++ [] = []; rw [List.append_nil]; exact g3) (by show conn.got ++ [] = out; rw [List.append_nil]; exact g4)
    | asking t c z todo g1 g2 g3 g4 g5 g6 =>
      have e : x ++ y = [] := by
        dsimp only at g6; rw [← g6, List.append_assoc] at h3
        exact (List.append_cancel_left (by rw [List.append_nil]; exact h3 : conn.got ++ [] = conn.got ++ (x ++ y))).symm
      obtain ⟨rfl, rfl⟩ := List.append_eq_nil_iff.1 e
      exact .asking t c z todo g1 g2 g3 g4 (by show conn.inbox ++ [] = []; rw [List.append_nil]; exact g5) (by show conn.got ++ [] = out; rw [List.append_nil]; exact g6)
    | told t c r rest g1 g2 g3 g4 g5 =>
      have e : rest = x ++ y := by
        dsimp only at g3; rw [g3, List.append_assoc] at h3
        exact List.append_cancel_left h3
      subst e
      refine .told t c r y g1 g2 h3 ?_ g5
      show c.rd (conn.inbox ++ x ++ y) = _
      rw [List.append_assoc]; exact g4
  | hangUp => cases he
  | read t c h1 h2 =>
    obtain ⟨o, ho⟩ := phase_of hg.excl (t := t) (c := c) (x := []) (by show (conn.pc t).talking = _; rw [h1]; rfl) hp
    subst ho
    obtain ⟨-, hst, hnil⟩ := hf.wire t c (by rw [h1]; rfl)
    cases hp with
    | asking _ _ z todo g1 g2 g3 g4 g5 g6 =>
      dsimp only at g5
      rw [g5, hnil] at h2
      exact absurd rfl h2
    | told _ _ r rest g1 g2 g3 g4 g5 =>
      dsimp only at g2 g3 g4
      rw [hst _ _ h2] at g4
      injection g4 with g6 g7
      obtain ⟨g8, rfl⟩ := List.append_eq_nil_iff.1 g7
      have hin : (conn.pc t).inside = true := by rw [h1]; rfl
      refine ⟨⟨hx, gR, gO, gW, goto_idle gI t .idle (by simp)⟩, ?_⟩
      refine .ends t c r (.told t c r [] g1 g2 g3 (by rw [hst _ _ h2, g6, g7]) g5) (by show (conn.pc t).op = _; rw [h1]; rfl) (fun u hu => ?_) ?_ ?_ ?_
      · show (conn.goto t .idle).pc u = conn.pc u
        rw [Sched.goto_pc, if_neg hu]
      · show (conn.goto t .idle).pc t = .idle
        rw [Sched.goto_pc, if_pos rfl]
      · show conn.log ++ [(c, (c.rd conn.inbox).1)] = conn.log ++ [(c, r)]
        rw [g6]
      · refine .quiet (fun u => Sched.ret_quiet hg.excl hin c (c.rd conn.inbox).1 u) g2 g8 (by show conn.got = out; rw [g3]; simp)
  | readFails t c h1 h2 h3 =>
    rcases h3 with h3 | h3
    · rw [gO] at h3; cases h3
    · rw [show conn.ended = false from he] at h3; cases h3
  | readTimeout t c h1 h2 h3 h4 => rw [hf.late] at h4; cases h4
  | callClose t h1 h2 => exact absurd h2 (hf.closers t)
  | closeAgain t h1 _ _ => exact absurd (gI t (by rw [h1]; rfl)) (by rw [h1]; simp)
  | closeGo t h1 _ => exact absurd (gI t (by rw [h1]; rfl)) (by rw [h1]; simp)
  | closeRawNil t h1 _ => exact absurd (gI t (by rw [h1]; rfl)) (by rw [h1]; simp)
  | closeRaw t h1 _ => exact absurd (gI t (by rw [h1]; rfl)) (by rw [h1]; simp)
  | clearRaw t h1 => exact absurd (gI t (by rw [h1]; rfl)) (by rw [h1]; simp)
  | closeChanPanic t h1 _ => exact absurd (gI t (by rw [h1]; rfl)) (by rw [h1]; simp)
  | closeChan t h1 _ _ => exact absurd (gI t (by rw [h1]; rfl)) (by rw [h1]; simp)
  | clearChan t h1 => exact absurd (gI t (by rw [h1]; rfl)) (by rw [h1]; simp)

/-! ### All connections and goroutines -/

/-- The goroutine is where the other one is, or its call was carried out and it has not got the result. -/
inductive Ahead (U : Setup S M) (w : State S) (i : Nat) : Option (Prog S) → Option (Prog S) → Prop where
  | same (x : Option (Prog S)) : (∀ s c r, ¬ Phase (w.line (U.proc i) s) (some (i, c, some r))) → Ahead U w i x x
  | told (s : S) (op : Op) (k : Res Out → Prog S) (r : Res Out) :
      Phase (w.line (U.proc i) s) (some (i, U.call s op, some r)) → Ahead U w i (some (.call s op k)) (some (k r))

/-- The system with its connections and the one in which calls are carried out at once. -/
structure Sim (U : Setup S M) (w : State S) (a : Moment S) : Prop where
  world : a.world = w.world
  good : ∀ p s, Good (w.line p s)
  phase : ∀ p s, ∃ ph, Phase (w.line p s) ph
  mine : ∀ p s i c, ((w.line p s).conn.pc i).op = some c →
    p = U.proc i ∧ ∃ op k, w.prog i = some (.call s op k) ∧ c = U.call s op
  wires : ∀ p s i c, ((w.line p s).conn.pc i).op = some c → ∃ x cmd, c.wire = .ok x ∧ readCmd x = (.ok cmd, [])
  ahead : ∀ i, Ahead U w i (w.prog i) (a.prog i)

theorem put_line (w : State S) (p : Nat) (s : S) (l : Line) (p' : Nat) (s' : S) :
    (w.put p s l).line p' s' = if p' = p ∧ s' = s then l else w.line p' s' := rfl

theorem put_self (w : State S) (p : Nat) (s : S) (l : Line) : (w.put p s l).line p s = l := by
  rw [put_line, if_pos ⟨rfl, rfl⟩]

theorem cmd_ne_nil {x : Bytes} {cmd : Option Cmd} (h : readCmd x = (.ok cmd, [])) : x ≠ [] := by
  rintro rfl
  have : readCmd [] = (.err .io, []) := rfl
  rw [this] at h
  cases h

theorem line_unique {l : Line} (hg : Good l) (hw : ∀ i c, (l.conn.pc i).op = some c → ∃ x cmd, c.wire = .ok x ∧ readCmd x = (.ok cmd, []))
    {a b} (ha : Phase l a) (hb : Phase l b) : a = b :=
  phase_unique hg.excl ha hb fun t c h w hc => by
    obtain ⟨x, cmd, h1, h2⟩ := hw t c h
    rw [h1] at hc
    cases hc
    exact cmd_ne_nil h2

theorem Ahead.put {U : Setup S M} {w : State S} {p : Nat} {s : S} {l : Line} {i : Nat} {x y : Option (Prog S)}
    (h : Ahead U w i x y)
    (hl : U.proc i = p → ∀ c r, Phase l (some (i, c, some r)) ↔ Phase (w.line p s) (some (i, c, some r))) :
    Ahead U (w.put p s l) i x y := by
  have key : ∀ s' c r, Phase ((w.put p s l).line (U.proc i) s') (some (i, c, some r)) ↔ Phase (w.line (U.proc i) s') (some (i, c, some r)) := by
    intro s' c r
    rw [put_line]
    by_cases h' : U.proc i = p ∧ s' = s
    · rw [if_pos h']
      obtain ⟨h1, rfl⟩ := h'
      rw [hl h1, h1]
    · rw [if_neg h']
  cases h with
  | same _ h => exact .same _ fun s' c r hph => h s' c r ((key s' c r).1 hph)
  | told s' op k r h => exact .told s' op k r ((key _ _ _).2 h)

/-- A step on one connection that no goroutine's call of a pool method notices. -/
theorem Sim.put {U : Setup S M} {w : State S} {a : Moment S} (h : Sim U w a) {p : Nat} {s : S} {l : Line} (hg : Good l)
    (hp : ∃ ph, Phase l ph)
    (hm : ∀ i c, (l.conn.pc i).op = some c → p = U.proc i ∧ (∃ op k, w.prog i = some (.call s op k) ∧ c = U.call s op)
      ∧ ∃ x cmd, c.wire = .ok x ∧ readCmd x = (.ok cmd, []))
    (hl : ∀ i, U.proc i = p → ∀ c r, Phase l (some (i, c, some r)) ↔ Phase (w.line p s) (some (i, c, some r))) :
    Sim U (w.put p s l) a := by
  refine ⟨h.world, fun p' s' => ?_, fun p' s' => ?_, fun p' s' i c => ?_, fun p' s' i c => ?_, fun i => (h.ahead i).put (hl i)⟩
  · rw [put_line]; split
    · exact hg
    · exact h.good p' s'
  · rw [put_line]; split
    · exact hp
    · exact h.phase p' s'
  · rw [put_line]
    by_cases h' : p' = p ∧ s' = s
    · rw [if_pos h']
      obtain ⟨rfl, rfl⟩ := h'
      exact fun hc => ⟨(hm i c hc).1, (hm i c hc).2.1⟩
    · rw [if_neg h']; exact h.mine p' s' i c
  · rw [put_line]
    by_cases h' : p' = p ∧ s' = s
    · rw [if_pos h']
      obtain ⟨rfl, rfl⟩ := h'
      exact fun hc => (hm i c hc).2.2
    · rw [if_neg h']; exact h.wires p' s' i c

/-- What is needed of the operations of a connection. -/
def Readers (U : Setup S M) : Prop := ∀ s op, Stable (U.call s op).rd ∧ (U.call s op).rd [] = (.err .io, [])

theorem Sim.fair {U : Setup S M} (hU : Readers U) {w : State S} {a : Moment S} (h : Sim U w a) (p : Nat) (s : S) :
    Fair (U.params s (w.line p s).out) (w.line p s).conn (w.line p s).out where
  resp := fun _ => rfl
  closers := fun _ h => h
  late := rfl
  wire := fun t c hc => by
    obtain ⟨x, cmd, h1, h2⟩ := h.wires p s t c hc
    obtain ⟨-, op, k, -, rfl⟩ := h.mine p s t c hc
    exact ⟨⟨x, h1, cmd_ne_nil h2⟩, hU s op⟩

theorem Sim.unique {U : Setup S M} {w : State S} {a : Moment S} (h : Sim U w a) {p : Nat} {s : S} {x y}
    (hx : Phase (w.line p s) x) (hy : Phase (w.line p s) y) : x = y :=
  line_unique (h.good p s) (fun i c hc => h.wires p s i c hc) hx hy

/-- A goroutine with nothing on the connection it calls next is where the other one is. -/
theorem Sim.here {U : Setup S M} {w : State S} {a : Moment S} (h : Sim U w a) {i : Nat} {s : S} {op : Op} {k : Res Out → Prog S}
    (hi : w.prog i = some (.call s op k)) (hn : ∀ c r, ¬ Phase (w.line (U.proc i) s) (some (i, c, some r))) :
    a.prog i = some (.call s op k) := by
  have := h.ahead i
  rw [hi] at this
  generalize ha : a.prog i = y at this
  cases this with
  | same _ _ => rfl
  | told _ _ _ r hp => exact absurd hp (hn _ r)

theorem sim_begin {U : Setup S M} {w : State S} {a : Moment S} (h : Sim U w a) (ha : NextProper U.call a) {i : Nat} {s : S} {op : Op}
    {k : Res Out → Prog S} (hi : w.prog i = some (.call s op k)) (hp : (w.line (U.proc i) s).conn.pc i = .idle) :
    Sim U (w.put (U.proc i) s { w.line (U.proc i) s with conn := (w.line (U.proc i) s).conn.goto i (.called (U.call s op)) }) a := by
  have hnt : ∀ u, ((w.line (U.proc i) s).conn.goto i (.called (U.call s op)) |>.pc u).talking = ((w.line (U.proc i) s).conn.pc u).talking :=
    fun u => goto_talking _ _ _ _ (by rw [hp]; rfl)
  have hn : ∀ c r, ¬ Phase (w.line (U.proc i) s) (some (i, c, some r)) := fun c r hph => by
    obtain ⟨x, hx⟩ := phase_talker hph
    rw [hp] at hx
    cases hx
  have hai := h.here hi hn
  obtain ⟨x, cmd, h1, h2, -⟩ := ha i s op k hai
  have hg := h.good (U.proc i) s
  refine h.put ⟨Sched.excl_goto hg.excl (by rw [hp]; rfl), hg.raw, hg.isOpen, hg.werr, goto_idle hg.idle _ _ (by simp [Sched.At.op])⟩ ?_ ?_ ?_
  · obtain ⟨ph, hph⟩ := h.phase (U.proc i) s
    exact ⟨ph, phase_frame hnt rfl rfl rfl hph⟩
  · intro j c hc
    have hc : (((w.line (U.proc i) s).conn.goto i (.called (U.call s op))).pc j).op = some c := hc
    rw [Sched.goto_pc] at hc
    by_cases hj : j = i
    · subst hj
      rw [if_pos rfl] at hc
      cases hc
      exact ⟨rfl, ⟨op, k, hi, rfl⟩, x, cmd, h1, h2⟩
    · rw [if_neg hj] at hc
      exact ⟨(h.mine _ s j c hc).1, (h.mine _ s j c hc).2, h.wires _ s j c hc⟩
  · intro j _ c r
    refine ⟨fun hph => ?_, fun hph => phase_frame hnt rfl rfl rfl hph⟩
    exact phase_frame (l := { w.line (U.proc i) s with conn := (w.line (U.proc i) s).conn.goto i (.called (U.call s op)) }) (c' := (w.line (U.proc i) s).conn)
      (fun u => (hnt u).symm) rfl rfl rfl hph

theorem sim_work {U : Setup S M} (hU : Readers U) {w : State S} {a : Moment S} (h : Sim U w a) {p : Nat} {s : S} {c' : Sched.State Nat}
    (hs : Sched.Step (U.params s (w.line p s).out) (w.line p s).conn c')
    (ho : ∀ i, (c'.pc i).op = ((w.line p s).conn.pc i).op) (he : c'.ended = false) :
    Sim U (w.put p s { w.line p s with conn := c' }) a := by
  obtain ⟨ph, hph⟩ := h.phase p s
  obtain ⟨hg, hd⟩ := sched_does hs (h.good p s) (h.fair hU p s) hph he
  have hm : ∀ i c, ((({ w.line p s with conn := c' } : Line).conn.pc i).op = some c → p = U.proc i ∧
      (∃ op k, w.prog i = some (.call s op k) ∧ c = U.call s op) ∧ ∃ x cmd, c.wire = .ok x ∧ readCmd x = (.ok cmd, [])) := by
    intro i c hc
    have hc : (c'.pc i).op = some c := hc
    rw [ho] at hc
    exact ⟨(h.mine p s i c hc).1, (h.mine p s i c hc).2, h.wires p s i c hc⟩
  have uniq : ∀ {x y}, Phase { w.line p s with conn := c' } x → Phase { w.line p s with conn := c' } y → x = y :=
    fun hx hy => line_unique hg (fun i c hc => (hm i c hc).2.2) hx hy
  cases hd with
  | stays _ _ h3 =>
    refine h.put hg ⟨ph, h3 ph hph⟩ hm fun i _ c r => ⟨fun hx => ?_, h3 _⟩
    have := uniq hx (h3 ph hph)
    rw [this]; exact hph
  | begins t c _ _ h3 h4 h5 =>
    refine h.put hg ⟨_, h5⟩ hm fun i _ d r => ⟨fun hx => ?_, fun hx => ?_⟩
    · exact absurd (uniq hx h5) (by simp)
    · exact absurd (h.unique hx h3) (by simp)
  | ends t c r h1 h2 h3 h4 =>
    have := ho t
    rw [h4, h2] at this
    cases this
  | calls t h1 h2 _ =>
    rw [ho t] at h2
    exact absurd h1 h2

theorem Ahead.set {U : Setup S M} {w : State S} {i j : Nat} {z : Option (Prog S)} {x y : Option (Prog S)} (h : Ahead U w i x y) :
    Ahead U (w.set j z) i x y := by
  cases h with
  | same _ h => exact .same _ h
  | told s op k r h => exact .told s op k r h

theorem Ahead.lines {U : Setup S M} {w w' : State S} {i : Nat} {x y : Option (Prog S)} (hl : w'.line = w.line) (h : Ahead U w i x y) :
    Ahead U w' i x y := by
  cases h with
  | same _ h => exact .same _ (by rw [hl]; exact h)
  | told s op k r h => exact .told s op k r (by rw [hl]; exact h)

theorem sim_ret {U : Setup S M} (hU : Readers U) {w : State S} {a : Moment S} (h : Sim U w a) {i : Nat} {s : S} {op : Op} {k : Res Out → Prog S}
    {c : Call Out} {r : Res Out} {c' : Sched.State Nat} (hi : w.prog i = some (.call s op k))
    (hs : Sched.Step (U.params s (w.line (U.proc i) s).out) (w.line (U.proc i) s).conn c')
    (hc : ((w.line (U.proc i) s).conn.pc i).op = some c) (hc' : c'.pc i = .idle)
    (hlog : c'.log = (w.line (U.proc i) s).conn.log ++ [(c, r)]) (he : c'.ended = false) :
    Sim U ((w.put (U.proc i) s { w.line (U.proc i) s with conn := c' }).set i (some (k r))) a := by
  obtain ⟨ph, hph⟩ := h.phase (U.proc i) s
  obtain ⟨hg, hd⟩ := sched_does hs (h.good _ s) (h.fair hU _ s) hph he
  cases hd with
  | stays h1 h2 _ => exact absurd (hc'.symm ▸ h1 i) (by rw [hc]; simp [Sched.At.op])
  | begins t d h1 _ _ _ _ => exact absurd (hc'.symm ▸ h1 i) (by rw [hc]; simp [Sched.At.op])
  | calls t h1 h2 h3 => exact absurd (congrArg List.length (h3.symm.trans hlog)) (by simp)
  | ends t d r' h1 h2 h3 h4 h5 h6 =>
    have e := h5.symm.trans hlog
    have e := List.append_cancel_left e
    injection e with e
    injection e with e1 e2
    subst e1 e2
    have hti : t = i := Classical.byContradiction fun hne => by
      have := h3 i (fun e => hne e.symm)
      rw [hc'] at this
      rw [← this] at hc
      cases hc
    subst hti
    obtain ⟨-, op', k', e3, e4⟩ := h.mine _ s t d h2
    rw [hi] at e3
    injection e3 with e3
    injection e3 with _ e5 e6
    subst e5 e6
    subst e4
    have ha : a.prog t = some (k r') := by
      have := h.ahead t
      rw [hi] at this
      generalize hap : a.prog t = y at this
      cases this with
      | same _ hn => exact absurd h1 (hn _ _ _)
      | told _ _ _ r hp =>
        have := h.unique hp h1
        injection this with this
        injection this with _ this
        injection this with _ this
        injection this with this
        rw [this]
    have hput : ∀ j, j ≠ t → Ahead U (w.put (U.proc t) s { w.line (U.proc t) s with conn := c' }) j (w.prog j) (a.prog j) := by
      intro j hj
      refine (h.ahead j).put fun hpj d r => ⟨fun hx => ?_, fun hx => ?_⟩
      · obtain ⟨y, hy⟩ := phase_talker hx
        cases h6 with
        | quiet g1 => rw [g1 j] at hy; cases hy
      · have := h.unique hx h1
        injection this with this
        injection this with this
        exact absurd this hj
    refine ⟨h.world, fun p' s' => ?_, fun p' s' => ?_, fun p' s' j d hd => ?_, fun p' s' j d hd => ?_, fun j => ?_⟩
    · show Good ((w.put _ s _).line p' s')
      rw [put_line]; split
      · exact hg
      · exact h.good p' s'
    · show ∃ ph, Phase ((w.put _ s _).line p' s') ph
      rw [put_line]; split
      · exact ⟨_, h6⟩
      · exact h.phase p' s'
    · have hd : ((((w.put (U.proc t) s { w.line (U.proc t) s with conn := c' }).line p' s').conn.pc j).op = some d) := hd
      have hd' : ((w.line p' s').conn.pc j).op = some d ∧ ¬ (p' = U.proc t ∧ s' = s ∧ j = t) := by
        rw [put_line] at hd
        by_cases h' : p' = U.proc t ∧ s' = s
        · rw [if_pos h'] at hd
          have hd : (c'.pc j).op = some d := hd
          by_cases hj : j = t
          · subst hj; rw [h4] at hd; cases hd
          · rw [h3 j hj] at hd
            rw [h'.1, h'.2]
            exact ⟨hd, fun hh => hj hh.2.2⟩
        · rw [if_neg h'] at hd
          exact ⟨hd, fun hh => h' ⟨hh.1, hh.2.1⟩⟩
      obtain ⟨m1, op1, k1, m2, m3⟩ := h.mine p' s' j d hd'.1
      have hj : j ≠ t := fun hj => by
        subst hj
        rw [hi] at m2
        injection m2 with m2
        injection m2 with m2
        exact hd'.2 ⟨m1, m2.symm, rfl⟩
      exact ⟨m1, op1, k1, by show (if j = t then _ else w.prog j) = _; rw [if_neg hj]; exact m2, m3⟩
    · have hd : ((((w.put (U.proc t) s { w.line (U.proc t) s with conn := c' }).line p' s').conn.pc j).op = some d) := hd
      rw [put_line] at hd
      by_cases h' : p' = U.proc t ∧ s' = s
      · rw [if_pos h'] at hd
        have hd : (c'.pc j).op = some d := hd
        by_cases hj : j = t
        · subst hj; rw [h4] at hd; cases hd
        · rw [h3 j hj] at hd
          exact h.wires _ s j d hd
      · rw [if_neg h'] at hd
        exact h.wires p' s' j d hd
    · show Ahead U _ j (if j = t then some (k r') else w.prog j) (a.prog j)
      by_cases hj : j = t
      · subst hj
        rw [if_pos rfl, ha]
        refine .same _ fun s' d r hx => ?_
        have hx : Phase ((w.put (U.proc j) s { w.line (U.proc j) s with conn := c' }).line (U.proc j) s') (some (j, d, some r)) := hx
        obtain ⟨y, hy⟩ := phase_talker hx
        rw [put_line] at hy
        by_cases hs' : s' = s
        · rw [if_pos ⟨rfl, hs'⟩] at hy
          have hy : (c'.pc j).talking = some (d, y) := hy
          rw [h4] at hy
          cases hy
        · rw [if_neg (fun hh => hs' hh.2)] at hy
          obtain ⟨-, op1, k1, m2, -⟩ := h.mine _ s' j d (op_of_talking hy)
          rw [hi] at m2
          injection m2 with m2
          injection m2 with m2
          exact hs' m2.symm
      · rw [if_neg hj]
        exact (hput j hj).set

theorem callOn_exchange {call : S → Op → Call Out} {s : S} {op : Op} {w : World S} {r : Res Out} {st : Store}
    (h : exchange (call s op) (w s) = some (r, st)) : callOn call s op some w = (r, World.update w s st) := by
  unfold callOn
  rw [h]
  cases r <;> rfl

theorem sim_serve {U : Setup S M} {w : State S} {a : Moment S} (h : Sim U w a) (ha : NextProper U.call a) {p : Nat} {s : S}
    {x y reply rest : Bytes} {st : Store} (hxy : (w.line p s).conn.sent.drop (w.line p s).used = x ++ y)
    (hst : Mc.step (w.world s) x = some (reply, st, rest)) :
    ∃ i a', MomentStep U.call U.method a (.run i) a' ∧
      Sim U { (w.put p s { w.line p s with used := (w.line p s).used + (x.length - rest.length)
                                           out := (w.line p s).out ++ reply }) with
        world := World.update w.world s st, calls := w.calls + 1 } a' := by
  obtain ⟨ph, hph⟩ := h.phase p s
  have hxne : x ≠ [] := fun hx => by subst hx; exact absurd (step_lt hst) (by simp)
  cases hph with
  | quiet g1 g2 g3 g4 =>
    exfalso
    rw [g2, List.drop_length] at hxy
    exact hxne (List.append_eq_nil_iff.1 hxy.symm).1
  | told t c r rest' g1 g2 g3 g4 g5 =>
    exfalso
    rw [g2, List.drop_length] at hxy
    exact hxne (List.append_eq_nil_iff.1 hxy.symm).1
  | asking t c z todo g1 g2 g3 g4 g5 g6 =>
    have hop := op_of_talking g1
    obtain ⟨rfl, op, k, hi, rfl⟩ := h.mine p s t c hop
    have hph : Phase (w.line (U.proc t) s) (some (t, U.call s op, none)) := .asking t _ z todo g1 g2 g3 g4 g5 g6
    have hai := h.here hi fun c r hx => by
      have := h.unique hx hph
      simp at this
    obtain ⟨wire, cmd, e1, e2, e3⟩ := ha t s op k hai
    rw [e1] at g2
    injection g2 with g2
    rw [g4] at hxy
    subst hxy
    have hstep := step_append hst (y ++ todo)
    have hall : ∃ reply' st', Mc.step (w.world s) wire = some (reply', st', []) := by
      unfold Mc.step
      rw [e2]
      cases cmd <;> exact ⟨_, _, rfl⟩
    obtain ⟨reply', st', hall⟩ := hall
    rw [g2, List.append_assoc, hstep] at hall
    injection hall with hall
    injection hall with q1 hall
    injection hall with q2 q3
    subst q1 q2
    obtain ⟨rfl, q4⟩ := List.append_eq_nil_iff.1 q3
    obtain ⟨rfl, rfl⟩ := List.append_eq_nil_iff.1 q4
    clear hstep q3 q4
    simp only [List.append_nil] at g2 g3 g4
    subst g2
    have hans : answer (w.world s) wire = some (reply, st) := by
      unfold answer
      obtain ⟨b, bs, rfl⟩ : ∃ b bs, wire = b :: bs := by
        cases wire with
        | nil => exact absurd rfl hxne
        | cons b bs => exact ⟨b, bs, rfl⟩
      simp only [List.length_cons, answerLoop, hst]
      cases bs.length <;> simp [answerLoop]
    rw [h.world] at e3
    have hex : ∃ r, exchange (U.call s op) (w.world s) = some (r, st) ∧ (U.call s op).rd reply = (r, []) ∧ r ≠ .err .io := by
      unfold exchange at e3 ⊢
      rw [e1] at e3 ⊢
      simp only [hans] at e3 ⊢
      cases hrd : (U.call s op).rd reply with
      | mk r left =>
        rw [hrd] at e3
        cases left with
        | cons b bs => exact absurd rfl e3
        | nil =>
          by_cases hr : r = .err .io
          · simp [hr] at e3
          · exact ⟨r, by simp [hr], rfl, hr⟩
    obtain ⟨r, x1, x2, x3⟩ := hex
    have hcall : callOn U.call s op some a.world = (r, World.update a.world s st) :=
      callOn_exchange (by rw [h.world]; exact x1)
    let l' : Line := { w.line (U.proc t) s with used := (w.line (U.proc t) s).used + wire.length, out := (w.line (U.proc t) s).out ++ reply }
    have hl' : Phase l' (some (t, U.call s op, some r)) := by
      refine .told t _ r reply g1 g3 ?_ ?_ x3
      · show (w.line (U.proc t) s).out ++ reply = (w.line (U.proc t) s).conn.got ++ reply
        rw [g6]
      · show (U.call s op).rd ((w.line (U.proc t) s).conn.inbox ++ reply) = _
        rw [g5]; exact x2
    have hgl : Good l' := by
      have := h.good (U.proc t) s
      exact ⟨this.excl, this.raw, this.isOpen, this.werr, this.idle⟩
    refine ⟨t, _, .run a t s op k hai, ?_⟩
    have hw1 : ∀ i c, ((w.line (U.proc t) s).conn.pc i).op = some c → ∃ x cmd, c.wire = .ok x ∧ readCmd x = (.ok cmd, []) := fun i c hc => h.wires _ s i c hc
    refine ⟨?_, fun p' s' => ?_, fun p' s' => ?_, fun p' s' j d hd => ?_, fun p' s' j d hd => ?_, fun j => ?_⟩
    · show (callOn U.call s op some a.world).2 = World.update w.world s st
      rw [hcall, h.world]
    · show Good ((w.put _ s l').line p' s')
      rw [put_line]; split
      · exact hgl
      · exact h.good p' s'
    · show ∃ ph, Phase ((w.put _ s l').line p' s') ph
      rw [put_line]; split
      · exact ⟨_, hl'⟩
      · exact h.phase p' s'
    · have hd : (((w.put (U.proc t) s l').line p' s').conn.pc j).op = some d := hd
      rw [put_line] at hd
      by_cases h' : p' = U.proc t ∧ s' = s
      · rw [if_pos h'] at hd
        rw [h'.1, h'.2]
        exact h.mine _ _ j d hd
      · rw [if_neg h'] at hd
        exact h.mine _ _ j d hd
    · have hd : (((w.put (U.proc t) s l').line p' s').conn.pc j).op = some d := hd
      rw [put_line] at hd
      by_cases h' : p' = U.proc t ∧ s' = s
      · rw [if_pos h'] at hd
        exact h.wires _ s j d hd
      · rw [if_neg h'] at hd
        exact h.wires _ _ j d hd
    · refine Ahead.lines (w := w.put (U.proc t) s l') rfl ?_
      show Ahead U (w.put (U.proc t) s l') j (w.prog j) (if j = t then some (k (callOn U.call s op some a.world).1) else a.prog j)
      by_cases hj : j = t
      · subst hj
        rw [if_pos rfl, hi, hcall]
        exact .told s op k r (by rw [put_self]; exact hl')
      · rw [if_neg hj]
        refine (h.ahead j).put fun hpj d r' => ⟨fun hx => ?_, fun hx => ?_⟩
        · have := line_unique hgl (fun i c hc => hw1 i c hc) hx hl'
          injection this with this
          injection this with this
          exact absurd this hj
        · have := h.unique hx hph
          simp at this

/-! ### Whole runs -/

theorem step_ended {U : Setup S M} {w w' : State S} {e : Option (Ev M)} (h : Step U w e w') (hu : Spec.Wired.Up w') : Spec.Wired.Up w := by
  have key : ∀ {c c' : Sched.State Nat} {P : Sched.Params Nat}, Sched.Step P c c' → c'.ended = false → c.ended = false := by
    intro c c' P hs he
    cases hs <;> first | exact he | cases he
  intro p s
  have := hu p s
  cases h with
  | tick | start | finish => exact this
  | begin i s' op k h1 h2 =>
    rw [put_line] at this
    by_cases h' : p = U.proc i ∧ s = s'
    · rw [if_pos h'] at this; rw [h'.1, h'.2]; exact this
    · rw [if_neg h'] at this; exact this
  | work p' s' c' h1 h2 =>
    rw [put_line] at this
    by_cases h' : p = p' ∧ s = s'
    · rw [if_pos h'] at this; rw [h'.1, h'.2]; exact key h1 this
    · rw [if_neg h'] at this; exact this
  | ret i s' op k c r c' h1 h2 h3 h4 h5 =>
    have this : ((w.put (U.proc i) s' { w.line (U.proc i) s' with conn := c' }).line p s).conn.ended = false := this
    rw [put_line] at this
    by_cases h' : p = U.proc i ∧ s = s'
    · rw [if_pos h'] at this; rw [h'.1, h'.2]; exact key h2 this
    · rw [if_neg h'] at this; exact this
  | serve p' s' x y reply rest st h1 h2 =>
    have this : ((w.put p' s' _).line p s).conn.ended = false := this
    rw [put_line] at this
    by_cases h' : p = p' ∧ s = s'
    · rw [if_pos h'] at this; rw [h'.1, h'.2]; exact this
    · rw [if_neg h'] at this; exact this

theorem sim_start {U : Setup S M} {w : State S} {a : Moment S} (h : Sim U w a) {i : Nat} {x : Option (Prog S)} {y : Option (Prog S)}
    (hi : w.prog i = y) (hy : ∀ s op k, y ≠ some (.call s op k)) :
    a.prog i = y ∧ Sim U (w.set i x) { a with prog := fun j => if j = i then x else a.prog j } := by
  have hai := h.ahead i
  rw [hi] at hai
  have hn : ∀ p s c, ((w.line p s).conn.pc i).op ≠ some c := fun p s c hc => by
    obtain ⟨-, op, k, h1, -⟩ := h.mine p s i c hc
    exact hy s op k (hi.symm.trans h1)
  constructor
  · generalize a.prog i = z at hai
    cases hai with
    | same _ _ => rfl
    | told s op k r _ => exact absurd rfl (hy s op k)
  refine ⟨h.world, h.good, h.phase, fun p s j c hc => ?_, h.wires, fun j => ?_⟩
  · obtain ⟨h1, op, k, h2, h3⟩ := h.mine p s j c hc
    refine ⟨h1, op, k, ?_, h3⟩
    show (if j = i then x else w.prog j) = _
    rw [if_neg (fun hj => hn p s c (by rw [← hj]; exact hc))]
    exact h2
  · show Ahead U _ j (if j = i then x else w.prog j) (if j = i then x else a.prog j)
    by_cases hj : j = i
    · rw [if_pos hj, if_pos hj]
      subst hj
      refine .same _ fun s c r hx => ?_
      obtain ⟨z, hz⟩ := phase_talker hx
      exact hn _ s c (op_of_talking hz)
    · rw [if_neg hj, if_neg hj]
      exact (h.ahead j).set

theorem sim_step {U : Setup S M} (hU : Readers U) {w w' : State S} {e : Option (Ev M)} (hs : Step U w e w') {a : Moment S} (h : Sim U w a)
    (ha : NextProper U.call a) (hu : Spec.Wired.Up w') :
    (∃ a', (match e with | some e => MomentStep U.call U.method a (.ev e) a' | none => a' = a) ∧ w'.calls = w.calls ∧ Sim U w' a')
    ∨ ∃ i a', e = none ∧ MomentStep U.call U.method a (.run i) a' ∧ w'.calls = w.calls + 1 ∧ Sim U w' a' := by
  cases hs with
  | tick d =>
    refine .inl ⟨_, .tick a d, rfl, by rw [h.world], h.good, h.phase, h.mine, h.wires, fun i => Ahead.lines (w := w) rfl (h.ahead i)⟩
  | start i m h1 =>
    obtain ⟨h2, h3⟩ := sim_start (x := some (U.method m)) h h1 (by simp)
    exact .inl ⟨_, .start a i m h2, rfl, h3⟩
  | finish i r h1 =>
    obtain ⟨h2, h3⟩ := sim_start (x := none) h h1 (by simp)
    exact .inl ⟨_, .finish a i r h2, rfl, h3⟩
  | begin i s op k h1 h2 => exact .inl ⟨a, rfl, rfl, sim_begin h ha h1 h2⟩
  | work p s c' h1 h2 =>
    exact .inl ⟨a, rfl, rfl, sim_work hU h h1 h2 (by have := hu p s; rw [put_self] at this; exact this)⟩
  | ret i s op k c r c' h1 h2 h3 h4 h5 =>
    refine .inl ⟨a, rfl, rfl, sim_ret hU h h1 h2 h3 h4 h5 ?_⟩
    have : ((w.put (U.proc i) s { w.line (U.proc i) s with conn := c' }).line (U.proc i) s).conn.ended = false := hu _ s
    rw [put_self] at this
    exact this
  | serve p s x y reply rest st h1 h2 =>
    obtain ⟨i, a', h3, h4⟩ := sim_serve h ha h1 h2
    exact .inr ⟨i, a', rfl, h3, rfl, h4⟩

theorem visible_append (l m : List (Doings M)) : visible (l ++ m) = visible l ++ visible m := by
  induction l with
  | nil => rfl
  | cons x l ih => cases x <;> simp [visible, ih]

theorem runs_append (l m : List (Doings M)) : runs (l ++ m) = runs l + runs m := by
  induction l with
  | nil => simp [runs]
  | cons x l ih => cases x <;> simp [runs, ih] <;> omega

theorem run_calls {U : Setup S M} {w0 w : State S} {tr : List (Ev M)} (h : Run U w0 tr w) : w0.calls ≤ w.calls := by
  induction h with
  | nil => exact Nat.le_refl _
  | snoc _ hs ih => cases hs <;> first | exact ih | exact Nat.le_succ_of_le ih

theorem step_calls {U : Setup S M} {w w' : State S} {e : Option (Ev M)} (hs : Step U w e w') : w.calls ≤ w'.calls := by
  cases hs <;> first | exact Nat.le_refl _ | exact Nat.le_succ _

/-- Every run of the system with its connections is one of the system in which calls are carried out at once; the
relation can be carried on. -/
theorem sim_run {U : Setup S M} (hU : Readers U) {w0 w : State S} {tr : List (Ev M)} (hr : Run U w0 tr w) (hu : Spec.Wired.Up w)
    {a0 : Moment S} (h0 : Sim U w0 a0)
    (hp : ∀ l a, MomentRun U.call U.method a0 l a → visible l <+: tr → w0.calls + runs l ≤ w.calls → NextProper U.call a) :
    ∃ l a, MomentRun U.call U.method a0 l a ∧ visible l = tr ∧ w0.calls + runs l = w.calls ∧ Sim U w a := by
  induction hr with
  | nil => exact ⟨[], a0, .nil, rfl, by simp [runs], h0⟩
  | @snoc tr e w w' hr hs ih =>
    obtain ⟨l, a, h1, h2, h3, h4⟩ := ih (step_ended hs hu) fun l a hl hv hc =>
      hp l a hl (hv.trans (List.prefix_append _ _)) (Nat.le_trans hc (step_calls hs))
    have ha := hp l a h1 (by rw [h2]; exact List.prefix_append _ _) (by rw [h3]; exact step_calls hs)
    rcases sim_step hU hs h4 ha hu with ⟨a', g1, g2, g3⟩ | ⟨i, a', rfl, g1, g2, g3⟩
    · cases e with
      | none =>
        subst g1
        exact ⟨l, a', h1, by simp [h2], by rw [g2]; exact h3, g3⟩
      | some e =>
        exact ⟨l ++ [.ev e], a', .snoc h1 g1, by rw [visible_append, h2]; rfl, by rw [runs_append, g2]; simpa [runs] using h3, g3⟩
    · refine ⟨l ++ [.run i], a', .snoc h1 g1, by rw [visible_append, h2]; rfl, ?_, g3⟩
      rw [runs_append, g2]; simp only [runs]; omega

theorem Sim.matches {U : Setup S M} {w : State S} {a : Moment S} (h : Sim U w a) : Matches w a := by
  refine ⟨h.world, fun i => ?_⟩
  have := h.ahead i
  generalize w.prog i = x at this
  generalize a.prog i = y at this
  cases this with
  | same _ _ => exact .inl rfl
  | told s op k r _ => exact .inr ⟨s, op, k, r, rfl, rfl⟩

theorem good_new : Good ({} : Line) :=
  ⟨fun u => by simp [Sched.init, Sched.At.inside], rfl, rfl, rfl, fun t _ => rfl⟩

theorem sim_init (U : Setup S M) (w : World S) : Sim U (State.init w) ⟨w, fun _ => none⟩ := by
  refine ⟨rfl, fun _ _ => good_new, fun _ _ => ⟨none, .quiet (fun _ => rfl) rfl rfl rfl⟩, fun p s i c hc => ?_, fun p s i c hc => ?_, fun i => ?_⟩
  · cases hc
  · cases hc
  · refine .same _ fun s c r hx => ?_
    obtain ⟨x, hx⟩ := phase_talker hx
    cases hx

end Wired
end Verif
