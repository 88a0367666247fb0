import Verif.Props.Wired
import Verif.Props.Progress
/-!
C84, continued: calls of pool methods come to an end.
-/

namespace Verif
namespace Wired
open Kv Spec Mc Pool Cluster
open Sched (Less less_wf wireLen)

variable {S M : Type} [DecidableEq S]

/-! ### Many goroutines, each of which gets on -/

/-- One of `ts` gets on, the others stay where they are. -/
def Down {ι α : Type} (r : α → α → Prop) (ts : List ι) (g f : ι → α) : Prop :=
  ∃ i, i ∈ ts ∧ r (g i) (f i) ∧ ∀ j, j ≠ i → g j = f j

theorem down_acc {ι α : Type} {r : α → α → Prop} (hr : WellFounded r) : ∀ (ts : List ι) (f : ι → α), Acc (Down r ts) f
  | [], f => ⟨_, fun g ⟨_, hi, _⟩ => by cases hi⟩
  | t :: ts, f => by
    have outer : ∀ a, ∀ f : ι → α, f t = a → Acc (Down r (t :: ts)) f := by
      intro a
      refine hr.induction (C := fun a => ∀ f : ι → α, f t = a → Acc (Down r (t :: ts)) f) a fun a ih f hf => ?_
      have inner : ∀ f : ι → α, Acc (Down r ts) f → f t = a → Acc (Down r (t :: ts)) f := by
        intro f hacc
        induction hacc with
        | intro f _ ihf =>
          intro hf
          refine ⟨_, fun g ⟨i, hi, h1, h2⟩ => ?_⟩
          by_cases hit : i = t
          · subst hit
            exact ih (g i) (hf ▸ h1) g rfl
          · have hi : i ∈ ts := by
              cases hi with
              | head => exact absurd rfl hit
              | tail _ h => exact h
            exact ihf g ⟨i, hi, h1, h2⟩ ((h2 t (fun h => hit h.symm)).trans hf)
      exact inner f (down_acc hr ts f) hf
    exact outer _ f rfl

/-- What is left of a method: nothing is less than something, what follows a call is less than the call and what
follows. -/
inductive Sub : Option (Prog S) → Option (Prog S) → Prop where
  | done (p : Prog S) : Sub none (some p)
  | next (s : S) (op : Op) (k : Res Out → Prog S) (r : Res Out) : Sub (some (k r)) (some (.call s op k))

omit [DecidableEq S] in
theorem sub_wf : WellFounded (Sub (S := S)) := by
  have h0 : Acc (Sub (S := S)) none := ⟨_, fun y h => by cases h⟩
  refine ⟨fun x => ?_⟩
  cases x with
  | none => exact h0
  | some p =>
    induction p with
    | ret r => exact ⟨_, fun y h => by cases h; exact h0⟩
    | call s op k ih =>
      exact ⟨_, fun y h => by
        cases h with
        | done => exact h0
        | next _ _ _ r => exact ih r⟩

/-- What is left of a call on a connection. -/
def place (c : Call Out) : Sched.At → Nat
  | .idle => 7 + wireLen c
  | a => a.cost

/-- The same with what is on its way. -/
def left (l : Line) (c : Call Out) (i : Nat) : Nat × Nat × Nat :=
  (place c (l.conn.pc i), if (l.conn.pc i).talking.isSome then l.conn.sent.length - l.used else 0,
    if (l.conn.pc i).talking.isSome then l.out.length - l.conn.got.length else 0)

/-- What is left for goroutine `i`. -/
def load (U : Setup S M) (w : State S) (i : Nat) : Option (Prog S) × Nat × Nat × Nat :=
  (w.prog i, match w.prog i with
    | some (.call s op _) => left (w.line (U.proc i) s) (U.call s op) i
    | _ => (0, 0, 0))

/-- Less is left. -/
def Lower : Option (Prog S) × Nat × Nat × Nat → Option (Prog S) × Nat × Nat × Nat → Prop := Prod.Lex Sub Less

omit [DecidableEq S] in
theorem lower_wf : WellFounded (Lower (S := S)) := (Prod.lex ⟨Sub, sub_wf⟩ ⟨Less, less_wf⟩).wf

theorem not_talking {l : Line} (hx : Sched.Excl l.conn) {t u : Nat} (ht : (l.conn.pc t).inside = true) (hu : u ≠ t) :
    (l.conn.pc u).talking = none := by
  cases h : (l.conn.pc u).talking with
  | none => rfl
  | some z =>
    have h1 := (hx u).1 (Sched.At.inside_of_talking (by rw [h]; simp))
    have h2 := (hx t).1 ht
    rw [h1] at h2
    exact absurd (Option.some.inj h2) hu

theorem left_other {l l' : Line} {c : Call Out} {j : Nat} (h1 : l'.conn.pc j = l.conn.pc j)
    (h2 : (l.conn.pc j).talking = none) : left l' c j = left l c j := by
  simp [left, h1, h2]

theorem left_frame {l l' : Line} {c : Call Out} {j : Nat} (h1 : l'.conn.pc j = l.conn.pc j)
    (h2 : l'.conn.sent = l.conn.sent) (h3 : l'.used = l.used) (h4 : l'.out = l.out) (h5 : l'.conn.got = l.conn.got) : left l' c j = left l c j := by
  simp [left, h1, h2, h3, h4, h5]

theorem goto_self {s : Sched.State Nat} {t : Nat} {a : Sched.At} (h : s.pc t = a) : s.goto t a = s := by
  have : (s.goto t a).pc = s.pc := by
    funext u
    rw [Sched.goto_pc]
    by_cases hu : u = t
    · rw [if_pos hu, hu, h]
    · rw [if_neg hu]
  show ({ s with pc := (s.goto t a).pc } : Sched.State Nat) = s
  rw [this]

/-- Work on a connection brings one goroutine on. -/
theorem work_left {P : Sched.Params Nat} {l : Line} {c' : Sched.State Nat} (hs : Sched.Step P l.conn c')
    (hg : Good l) (hf : Fair P l.conn l.out) {ph} (hp : Phase l ph) (he : c'.ended = false)
    (ho : ∀ i, (c'.pc i).op = (l.conn.pc i).op) (hne : c' ≠ l.conn) :
    ∃ i c, (l.conn.pc i).op = some c ∧ Less (left { l with conn := c' } c i) (left l c i)
      ∧ ∀ j d, j ≠ i → left { l with conn := c' } d j = left l d j := by
  obtain ⟨conn, used, out⟩ := l
  have gI := hg.idle
  have gR := hg.raw
  have gO := hg.isOpen
  have gW := hg.werr
  dsimp only at *
  have key : ∀ (t : Nat) (a : Sched.At) (c : Call Out), c'.pc = (conn.goto t a).pc → (conn.pc t).op = some c → a.op = some c →
      place c a < place c (conn.pc t) → (∀ j, j ≠ t → ∀ d, left ⟨c', used, out⟩ d j = left ⟨conn, used, out⟩ d j) →
      ∃ i c, (conn.pc i).op = some c ∧ Less (left ⟨c', used, out⟩ c i) (left ⟨conn, used, out⟩ c i)
        ∧ ∀ j d, j ≠ i → left ⟨c', used, out⟩ d j = left ⟨conn, used, out⟩ d j := by
    intro t a c h1 h2 h3 h4 h5
    refine ⟨t, c, h2, .left _ _ ?_, fun j d hj => h5 j hj d⟩
    show place c (c'.pc t) < place c (conn.pc t)
    rw [h1, Sched.goto_pc, if_pos rfl]
    exact h4
  have key' : ∀ (t : Nat) (a : Sched.At) (c : Call Out), c'.pc = (conn.goto t a).pc → c'.sent = conn.sent → c'.got = conn.got →
      (conn.pc t).op = some c → a.op = some c → place c a < place c (conn.pc t) →
      ∃ i c, (conn.pc i).op = some c ∧ Less (left ⟨c', used, out⟩ c i) (left ⟨conn, used, out⟩ c i)
        ∧ ∀ j d, j ≠ i → left ⟨c', used, out⟩ d j = left ⟨conn, used, out⟩ d j := by
    intro t a c h1 e1 e2 h2 h3 h4
    refine key t a c h1 h2 h3 h4 fun j hj d => left_frame ?_ e1 rfl rfl e2
    show c'.pc j = conn.pc j
    rw [h1, Sched.goto_pc, if_neg hj]
  have gone : ∀ t c, (conn.pc t).op = some c → c'.pc t ≠ .idle := fun t c h1 h2 => by
    have := ho t
    rw [h2, h1] at this
    cases this
  have pcidle : ∀ (t : Nat), (conn.goto t Sched.At.idle).pc t = .idle := fun t => by rw [Sched.goto_pc, if_pos rfl]
  cases hs with
  | call t c h1 h2 =>
    have := ho t
    rw [h1, Sched.goto_pc, if_pos rfl] at this
    cases this
  | lock t c h1 h2 => exact key' t (.locked c) c rfl rfl rfl (by rw [h1]; rfl) rfl (by rw [h1]; simp only [place, Sched.At.cost]; omega)
  | refuse t c h1 h2 h3 => rw [gR] at h3; cases h3
  | pass t c h1 h2 => exact key' t (.writeDeadline c) c rfl rfl rfl (by rw [h1]; rfl) rfl (by rw [h1]; simp only [place, Sched.At.cost]; omega)
  | writeDeadlineNil t c h1 h2 h3 => rw [gR] at h3; cases h3
  | writeDeadline t c h1 h2 h3 => exact key' t (.readDeadline c) c rfl rfl rfl (by rw [h1]; rfl) rfl (by rw [h1]; simp only [place, Sched.At.cost]; omega)
  | readDeadlineNil t c h1 h2 => rw [gR] at h2; cases h2
  | readDeadline t c w h1 h2 h3 => exact key' t (.writing c w) c rfl rfl rfl (by rw [h1]; rfl) rfl (by rw [h1]; simp only [place, Sched.At.cost, wireLen, h3]; omega)
  | noDeadline t c w h1 h2 h3 => exact key' t (.writing c w) c rfl rfl rfl (by rw [h1]; rfl) rfl (by rw [h1]; simp only [place, Sched.At.cost, wireLen, h3]; omega)
  | unencodable t c e h1 h2 =>
    obtain ⟨⟨w, hw, -⟩, -⟩ := hf.wire t c (by rcases h1 with ⟨h1, -⟩ | ⟨h1, -⟩ <;> rw [h1] <;> rfl)
    rw [hw] at h2; cases h2
  | unencodablePanic t c h1 h2 =>
    obtain ⟨⟨w, hw, -⟩, -⟩ := hf.wire t c (by rcases h1 with ⟨h1, -⟩ | ⟨h1, -⟩ <;> rw [h1] <;> rfl)
    rw [hw] at h2; cases h2
  | write t c x y h1 h2 h3 =>
    have hx : x ≠ [] := by
      rintro rfl
      apply hne
      show ({ conn.goto t (.writing c y) with sent := conn.sent ++ [] } : Sched.State Nat) = conn
      rw [List.append_nil]
      exact goto_self h1
    have := List.length_pos_iff.2 hx
    refine key t (.writing c y) c rfl (by rw [h1]; rfl) rfl (by rw [h1]; simp only [place, Sched.At.cost, List.length_append]; omega) fun j hj d => ?_
    refine left_other ?_ (not_talking hg.excl (t := t) (by show (conn.pc t).inside = true; rw [h1]; rfl) hj)
    show (conn.goto t (.writing c y)).pc j = conn.pc j
    rw [Sched.goto_pc, if_neg hj]
  | writeFails t c x h1 h2 => exact absurd (pcidle t) (gone t c (by rw [h1]; rfl))
  | written t c h1 h2 => exact key' t (.reading c) c rfl rfl rfl (by rw [h1]; rfl) rfl (by rw [h1]; simp only [place, Sched.At.cost, List.length_nil]; omega)
  | arrive x y h1 h2 h3 =>
    have hx : x ≠ [] := by
      rintro rfl
      apply hne
      show ({ conn with got := conn.got ++ [], inbox := conn.inbox ++ [] } : Sched.State Nat) = conn
      rw [List.append_nil, List.append_nil]
    rw [hf.resp] at h3
    have hlen := List.length_pos_iff.2 hx
    have hout : out.length = conn.got.length + x.length + y.length := by rw [h3]; simp only [List.length_append]
    cases hp with
    | quiet g1 g2 g3 g4 => dsimp only at g4; rw [g4] at hout; omega
    | asking t c z todo g1 g2 g3 g4 g5 g6 => dsimp only at g6; rw [g6] at hout; omega
    | told t c r rest g1 g2 g3 g4 g5 =>
      dsimp only at g1
      refine ⟨t, c, op_of_talking g1, ?_, fun j d hj => left_other rfl (not_talking hg.excl (t := t) (Sched.At.inside_of_talking (by rw [g1]; simp)) hj)⟩
      unfold left
      dsimp only
      rw [g1]
      refine .right _ (.right _ ?_)
      simp only [Option.isSome_some, if_true, List.length_append]
      omega
  | hangUp => cases he
  | read t c h1 h2 => exact absurd (pcidle t) (gone t c (by rw [h1]; rfl))
  | readFails t c h1 h2 h3 => exact absurd (pcidle t) (gone t c (by rw [h1]; rfl))
  | readTimeout t c h1 h2 h3 h4 => exact absurd (pcidle t) (gone t c (by rw [h1]; rfl))
  | callClose t h1 h2 => exact absurd h2 (hf.closers t)
  | closeAgain t h1 _ _ => exact absurd (gI t (by rw [h1]; rfl)) (by rw [h1]; simp)
  | closeGo t h1 _ => exact absurd (gI t (by rw [h1]; rfl)) (by rw [h1]; simp)
  | closeRawNil t h1 _ => exact absurd (gI t (by rw [h1]; rfl)) (by rw [h1]; simp)
  | closeRaw t h1 _ => exact absurd (gI t (by rw [h1]; rfl)) (by rw [h1]; simp)
  | clearRaw t h1 => exact absurd (gI t (by rw [h1]; rfl)) (by rw [h1]; simp)
  | closeChanPanic t h1 _ => exact absurd (gI t (by rw [h1]; rfl)) (by rw [h1]; simp)
  | closeChan t h1 _ _ => exact absurd (gI t (by rw [h1]; rfl)) (by rw [h1]; simp)
  | clearChan t h1 => exact absurd (gI t (by rw [h1]; rfl)) (by rw [h1]; simp)

/-- The connection of the server that a goroutine calls, changed. -/
theorem load_put {U : Setup S M} {w : State S} {p : Nat} {s : S} {l : Line} {j : Nat}
    (h : ∀ op k, U.proc j = p → w.prog j = some (.call s op k) → left l (U.call s op) j = left (w.line p s) (U.call s op) j) :
    load U (w.put p s l) j = load U w j := by
  show (w.prog j, _) = (w.prog j, _)
  congr 1
  show (match w.prog j with | some (.call s' op _) => left ((w.put p s l).line (U.proc j) s') (U.call s' op) j | _ => (0, 0, 0)) = _
  cases hw : w.prog j with
  | none => rfl
  | some x =>
    cases x with
    | ret r => rfl
    | call s' op k =>
      show left ((w.put p s l).line (U.proc j) s') (U.call s' op) j = left (w.line (U.proc j) s') (U.call s' op) j
      rw [put_line]
      by_cases h' : U.proc j = p ∧ s' = s
      · rw [if_pos h']
        obtain ⟨h1, rfl⟩ := h'
        rw [h1]
        exact h op k h1 hw
      · rw [if_neg h']

theorem load_call {U : Setup S M} {w : State S} {i : Nat} {s : S} {op : Op} {k : Res Out → Prog S} (h : w.prog i = some (.call s op k)) :
    load U w i = (some (.call s op k), left (w.line (U.proc i) s) (U.call s op) i) := by
  unfold load
  rw [h]

theorem load_set_ne {U : Setup S M} {w : State S} {i j : Nat} {x : Option (Prog S)} (h : j ≠ i) : load U (w.set i x) j = load U w j := by
  unfold load
  have : (w.set i x).prog j = w.prog j := by show (if j = i then x else w.prog j) = _; rw [if_neg h]
  rw [this]
  rfl

/-- Whatever happens brings one goroutine on. -/
theorem works_load {U : Setup S M} (hU : Readers U) {w w' : State S} {a : Moment S} (h : Sim U w a) (hs : Spec.Wired.Works U w w') :
    ∃ i, w.prog i ≠ none ∧ Lower (load U w' i) (load U w i) ∧ ∀ j, j ≠ i → load U w' j = load U w j := by
  obtain ⟨e, hs, ht, hst, hne, hu⟩ := hs
  cases hs with
  | tick d => exact absurd rfl (ht d)
  | start i m h1 => exact absurd rfl (hst i m)
  | finish i r h1 =>
    refine ⟨i, by rw [h1]; simp, .left _ _ ?_, fun j hj => load_set_ne hj⟩
    show Sub (if i = i then none else w.prog i) (w.prog i)
    rw [if_pos rfl, h1]
    exact .done _
  | begin i s op k h1 h2 =>
    refine ⟨i, by rw [h1]; simp, ?_, fun j hj => load_put fun op' k' _ _ => left_frame ?_ rfl rfl rfl rfl⟩
    · rw [load_call h1, load_call (w := w.put _ _ _) h1, put_self]
      refine .right _ (.left _ _ ?_)
      show place _ (((w.line (U.proc i) s).conn.goto i (.called (U.call s op))).pc i) < place _ ((w.line (U.proc i) s).conn.pc i)
      rw [Sched.goto_pc, if_pos rfl, h2]
      simp only [place, Sched.At.cost]; omega
    · show ((w.line (U.proc i) s).conn.goto i (.called (U.call s op))).pc j = _
      rw [Sched.goto_pc, if_neg hj]
  | work p s c' h1 h2 =>
    have hc : c' ≠ (w.line p s).conn := by
      rintro rfl
      apply hne
      show ({ w with line := fun p' s' => if p' = p ∧ s' = s then w.line p s else w.line p' s' } : State S) = w
      have : (fun p' s' => if p' = p ∧ s' = s then w.line p s else w.line p' s') = w.line := by
        funext p' s'
        by_cases h' : p' = p ∧ s' = s
        · rw [if_pos h', h'.1, h'.2]
        · rw [if_neg h']
      rw [this]
    obtain ⟨ph, hph⟩ := h.phase p s
    obtain ⟨i, c, g1, g2, g3⟩ := work_left h1 (h.good p s) (h.fair hU p s) hph (by have := hu p s; rw [put_self] at this; exact this) h2 hc
    obtain ⟨rfl, op, k, m1, rfl⟩ := h.mine p s i c g1
    refine ⟨i, by rw [m1]; simp, ?_, fun j hj => load_put fun op' k' _ _ => g3 j _ hj⟩
    rw [load_call m1, load_call (w := w.put _ _ _) m1, put_self]
    exact .right _ g2
  | ret i s op k c r c' h1 h2 h3 h4 h5 =>
    have hu' : c'.ended = false := by
      have : ((w.put (U.proc i) s { w.line (U.proc i) s with conn := c' }).line (U.proc i) s).conn.ended = false := hu _ s
      rw [put_self] at this
      exact this
    obtain ⟨ph, hph⟩ := h.phase (U.proc i) s
    obtain ⟨hg, hd⟩ := sched_does h2 (h.good _ s) (h.fair hU _ s) hph hu'
    have hends : ∃ c r, Phase (w.line (U.proc i) s) (some (i, c, some r)) ∧ ∀ u, u ≠ i → c'.pc u = (w.line (U.proc i) s).conn.pc u := by
      cases hd with
      | stays g1 _ _ => exact absurd (h4.symm ▸ g1 i) (by rw [h3]; simp [Sched.At.op])
      | begins t d g1 _ _ _ _ => exact absurd (h4.symm ▸ g1 i) (by rw [h3]; simp [Sched.At.op])
      | calls t g1 g2 g3 => exact absurd (congrArg List.length (g3.symm.trans h5)) (by simp)
      | ends t d r' g1 g2 g3 g4 g5 g6 =>
        have hti : t = i := Classical.byContradiction fun hne => by
          have := g3 i (fun e => hne e.symm)
          rw [h4] at this
          rw [← this] at h3
          cases h3
        subst hti
        exact ⟨d, r', g1, g3⟩
    obtain ⟨d, r', g1, g2⟩ := hends
    obtain ⟨x, hx⟩ := phase_talker g1
    refine ⟨i, by rw [h1]; simp, .left _ _ ?_, fun j hj => ?_⟩
    · show Sub (if i = i then some (k r) else _) (w.prog i)
      rw [if_pos rfl, h1]
      exact .next s op k r
    · rw [load_set_ne hj]
      exact load_put fun op' k' _ _ => left_other (g2 j hj)
        (not_talking (h.good _ s).excl (Sched.At.inside_of_talking (by rw [hx]; simp)) hj)
  | serve p s x y reply rest st h1 h2 =>
    have hlt := step_lt h2
    obtain ⟨ph, hph⟩ := h.phase p s
    have hxne : x ≠ [] := fun hx => by subst hx; exact absurd hlt (by simp)
    have hlen := congrArg List.length h1
    simp only [List.length_drop, List.length_append] at hlen
    cases hph with
    | quiet g1 g2 g3 g4 =>
      exfalso
      rw [g2, List.drop_length] at h1
      exact hxne (List.append_eq_nil_iff.1 h1.symm).1
    | told t c r rest' g1 g2 g3 g4 g5 =>
      exfalso
      rw [g2, List.drop_length] at h1
      exact hxne (List.append_eq_nil_iff.1 h1.symm).1
    | asking t c z todo g1 g2 g3 g4 g5 g6 =>
      obtain ⟨rfl, op, k, m1, rfl⟩ := h.mine p s t c (op_of_talking g1)
      let l' : Line := { w.line (U.proc t) s with used := (w.line (U.proc t) s).used + (x.length - rest.length), out := (w.line (U.proc t) s).out ++ reply }
      have hload : ∀ j, load U { (w.put (U.proc t) s l') with world := World.update w.world s st, calls := w.calls + 1 } j = load U (w.put (U.proc t) s l') j := fun _ => rfl
      refine ⟨t, by rw [m1]; simp, ?_, fun j hj => (hload j).trans (load_put fun op' k' _ _ =>
        left_other rfl (not_talking (h.good _ s).excl (Sched.At.inside_of_talking (by rw [g1]; simp)) hj))⟩
      rw [hload, load_call m1, load_call (w := w.put _ _ _) m1, put_self]
      refine .right _ ?_
      unfold left
      dsimp only [l']
      rw [g1]
      refine .right _ (.left _ _ ?_)
      simp only [Option.isSome_some, if_true]
      omega

end Wired
end Verif
