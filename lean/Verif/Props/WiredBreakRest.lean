import Verif.Props.WiredBreakUse
/-!
C85, continued: the methods return, whatever connections break.
-/

namespace Verif
namespace Wired
open Kv Spec Mc Pool Cluster
open Sched (Less less_wf wireLen)

variable {S M : Type} [DecidableEq S]

/-- Work on a connection brings one goroutine on. -/
theorem work_left2 {P : Sched.Params Nat} {l : Line} {c' : Sched.State Nat} (hs : Sched.Step P l.conn c')
    (hg : Sound1 l) (hf : Fair P l.conn l.out) {q : List Bytes} {ph} (hp : Ph l q ph) (he : c'.ended = l.conn.ended)
    (ho : ∀ i, (c'.pc i).op = (l.conn.pc i).op) (hne : c' ≠ l.conn) :
    ∃ i c, (l.conn.pc i).op = some c ∧ Less (left { l with conn := c' } c i) (left l c i)
      ∧ ∀ j d, j ≠ i → left { l with conn := c' } d j = left l d j := by
  obtain ⟨conn, used, out⟩ := l
  have gI := hg.idle
  have gR := hg.raw
  have gO := hg.isOpen
  dsimp only at *
  have key : ∀ (t : Nat) (a : Sched.At) (c : Call Out), c'.pc = (conn.goto t a).pc → (conn.pc t).op = some c → a.op = some c →
      place c a < place c (conn.pc t) → (∀ j, j ≠ t → ∀ d, left ⟨c', used, out⟩ d j = left ⟨conn, used, out⟩ d j) →
      ∃ i c, (conn.pc i).op = some c ∧ Less (left ⟨c', used, out⟩ c i) (left ⟨conn, used, out⟩ c i)
        ∧ ∀ j d, j ≠ i → left ⟨c', used, out⟩ d j = left ⟨conn, used, out⟩ d j := by
    intro t a c h1 h2 h3 h4 h5
    refine ⟨t, c, h2, .left _ _ ?_, fun j d hj => h5 j hj d⟩
    show place c (c'.pc t) < place c (conn.pc t)
    rw [h1, Sched.goto_pc, if_pos rfl]
    exact h4
  have key' : ∀ (t : Nat) (a : Sched.At) (c : Call Out), c'.pc = (conn.goto t a).pc → c'.sent = conn.sent → c'.got = conn.got →
      (conn.pc t).op = some c → a.op = some c → place c a < place c (conn.pc t) →
      ∃ i c, (conn.pc i).op = some c ∧ Less (left ⟨c', used, out⟩ c i) (left ⟨conn, used, out⟩ c i)
        ∧ ∀ j d, j ≠ i → left ⟨c', used, out⟩ d j = left ⟨conn, used, out⟩ d j := by
    intro t a c h1 e1 e2 h2 h3 h4
    refine key t a c h1 h2 h3 h4 fun j hj d => left_frame ?_ e1 rfl rfl e2
    show c'.pc j = conn.pc j
    rw [h1, Sched.goto_pc, if_neg hj]
  have gone : ∀ t c, (conn.pc t).op = some c → c'.pc t ≠ .idle := fun t c h1 h2 => by
    have := ho t
    rw [h2, h1] at this
    cases this
  have pcidle : ∀ (t : Nat), (conn.goto t Sched.At.idle).pc t = .idle := fun t => by rw [Sched.goto_pc, if_pos rfl]
  cases hs with
  | call t c h1 h2 =>
    have := ho t
    rw [h1, Sched.goto_pc, if_pos rfl] at this
    cases this
  | lock t c h1 h2 => exact key' t (.locked c) c rfl rfl rfl (by rw [h1]; rfl) rfl (by rw [h1]; simp only [place, Sched.At.cost]; omega)
  | refuse t c h1 h2 h3 => rw [gR] at h3; cases h3
  | pass t c h1 h2 => exact key' t (.writeDeadline c) c rfl rfl rfl (by rw [h1]; rfl) rfl (by rw [h1]; simp only [place, Sched.At.cost]; omega)
  | writeDeadlineNil t c h1 h2 h3 => rw [gR] at h3; cases h3
  | writeDeadline t c h1 h2 h3 => exact key' t (.readDeadline c) c rfl rfl rfl (by rw [h1]; rfl) rfl (by rw [h1]; simp only [place, Sched.At.cost]; omega)
  | readDeadlineNil t c h1 h2 => rw [gR] at h2; cases h2
  | readDeadline t c w h1 h2 h3 => exact key' t (.writing c w) c rfl rfl rfl (by rw [h1]; rfl) rfl (by rw [h1]; simp only [place, Sched.At.cost, wireLen, h3]; omega)
  | noDeadline t c w h1 h2 h3 => exact key' t (.writing c w) c rfl rfl rfl (by rw [h1]; rfl) rfl (by rw [h1]; simp only [place, Sched.At.cost, wireLen, h3]; omega)
  | unencodable t c e h1 h2 =>
    obtain ⟨⟨w, hw, -⟩, -⟩ := hf.wire t c (by rcases h1 with ⟨h1, -⟩ | ⟨h1, -⟩ <;> rw [h1] <;> rfl)
    rw [hw] at h2; cases h2
  | unencodablePanic t c h1 h2 =>
    obtain ⟨⟨w, hw, -⟩, -⟩ := hf.wire t c (by rcases h1 with ⟨h1, -⟩ | ⟨h1, -⟩ <;> rw [h1] <;> rfl)
    rw [hw] at h2; cases h2
  | write t c x y h1 h2 h3 =>
    have hx : x ≠ [] := by
      rintro rfl
      apply hne
      show ({ conn.goto t (.writing c y) with sent := conn.sent ++ [] } : Sched.State Nat) = conn
      rw [List.append_nil]
      exact goto_self h1
    have := List.length_pos_iff.2 hx
    refine key t (.writing c y) c rfl (by rw [h1]; rfl) rfl (by rw [h1]; simp only [place, Sched.At.cost, List.length_append]; omega) fun j hj d => ?_
    refine left_other ?_ (not_talking hg.excl (t := t) (by show (conn.pc t).inside = true; rw [h1]; rfl) hj)
    show (conn.goto t (.writing c y)).pc j = conn.pc j
    rw [Sched.goto_pc, if_neg hj]
  | writeFails t c x h1 h2 => exact absurd (pcidle t) (gone t c (by rw [h1]; rfl))
  | written t c h1 h2 => exact key' t (.reading c) c rfl rfl rfl (by rw [h1]; rfl) rfl (by rw [h1]; simp only [place, Sched.At.cost, List.length_nil]; omega)
  | arrive x y h1 h2 h3 =>
    have hx : x ≠ [] := by
      rintro rfl
      apply hne
      show ({ conn with got := conn.got ++ [], inbox := conn.inbox ++ [] } : Sched.State Nat) = conn
      rw [List.append_nil, List.append_nil]
    rw [hf.resp] at h3
    have hlen := List.length_pos_iff.2 hx
    have hout : out.length = conn.got.length + x.length + y.length := by rw [h3]; simp only [List.length_append]
    cases hp with
    | quiet g1 g2 g3 g4 g5 => have g5 := (g5 h2).2; dsimp only at g5; rw [g5] at hout; omega
    | dead g1 => rw [show conn.ended = true from g1] at h2; cases h2
    | asking t c z todo g1 g2 g3 g4 g5 g6 => have g6 := (g6 h2).2; dsimp only at g6; rw [g6] at hout; omega
    | told t c r rest g1 g2 g3 g4 g5 =>
      dsimp only at g1
      refine ⟨t, c, op_of_talking g1, ?_, fun j d hj => left_other rfl (not_talking hg.excl (t := t) (Sched.At.inside_of_talking (by rw [g1]; simp)) hj)⟩
      unfold left
      dsimp only
      rw [g1]
      refine .right _ (.right _ ?_)
      simp only [Option.isSome_some, if_true, List.length_append]
      omega
  | hangUp => exact absurd (by show ({ conn with ended := true } : Sched.State Nat) = conn; rw [show true = conn.ended from he]) hne
  | read t c h1 h2 => exact absurd (pcidle t) (gone t c (by rw [h1]; rfl))
  | readFails t c h1 h2 h3 => exact absurd (pcidle t) (gone t c (by rw [h1]; rfl))
  | readTimeout t c h1 h2 h3 h4 => exact absurd (pcidle t) (gone t c (by rw [h1]; rfl))
  | callClose t h1 h2 => exact absurd h2 (hf.closers t)
  | closeAgain t h1 _ _ => exact absurd (gI t (by rw [h1]; rfl)) (by rw [h1]; simp)
  | closeGo t h1 _ => exact absurd (gI t (by rw [h1]; rfl)) (by rw [h1]; simp)
  | closeRawNil t h1 _ => exact absurd (gI t (by rw [h1]; rfl)) (by rw [h1]; simp)
  | closeRaw t h1 _ => exact absurd (gI t (by rw [h1]; rfl)) (by rw [h1]; simp)
  | clearRaw t h1 => exact absurd (gI t (by rw [h1]; rfl)) (by rw [h1]; simp)
  | closeChanPanic t h1 _ => exact absurd (gI t (by rw [h1]; rfl)) (by rw [h1]; simp)
  | closeChan t h1 _ _ => exact absurd (gI t (by rw [h1]; rfl)) (by rw [h1]; simp)
  | clearChan t h1 => exact absurd (gI t (by rw [h1]; rfl)) (by rw [h1]; simp)

/-- An operation that returns sends and gets nothing in doing so. -/
theorem step_returned {P : Sched.Params Nat} {c c' : Sched.State Nat} (hs : Sched.Step P c c') {i : Nat} {d : Call Out} {r : Res Out}
    (h3 : (c.pc i).op = some d) (h4 : c'.pc i = .idle) (h5 : c'.log = c.log ++ [(d, r)]) :
    c'.sent = c.sent ∧ c'.got = c.got ∧ ∀ u, u ≠ i → c'.pc u = c.pc u := by
  have nolog : ∀ {x : Call Out × Res Out}, c.log ≠ c.log ++ [x] := fun h => absurd (congrArg List.length h) (by simp)
  have key : ∀ t, (∀ u, u ≠ t → c'.pc u = c.pc u) → ∀ u, u ≠ i → c'.pc u = c.pc u := by
    intro t ht
    by_cases hti : i = t
    · rw [hti]; exact ht
    · have := ht i hti
      rw [h4] at this
      rw [← this] at h3
      cases h3
  have gone : ∀ (t : Nat) (a : Sched.At) (u : Nat), u ≠ t → (c.goto t a).pc u = c.pc u := fun t a u hu => by rw [Sched.goto_pc, if_neg hu]
  cases hs with
  | refuse t | unencodable t | unencodablePanic t | writeFails t | read t | readFails t | readTimeout t => exact ⟨rfl, rfl, key t (gone t _)⟩
  | _ => exact absurd h5 nolog

/-- Whatever happens brings one goroutine on. -/
theorem goes_load {U : Setup S M} (hU : Readers U) {w w' : State S} {a : Shaky S} {ph} (h : Sim2 U w a ph) (hs : Spec.Wired.GoesOn U w w') :
    ∃ i, w.prog i ≠ none ∧ Lower (load U w' i) (load U w i) ∧ ∀ j, j ≠ i → load U w' j = load U w j := by
  obtain ⟨e, hs, ht, hst, hne, hu, hv⟩ := hs
  cases hs with
  | tick d => exact absurd rfl (ht d)
  | start i m h1 => exact absurd rfl (hst i m)
  | finish i r h1 =>
    refine ⟨i, by rw [h1]; simp, .left _ _ ?_, fun j hj => load_set_ne hj⟩
    show Sub (if i = i then none else w.prog i) (w.prog i)
    rw [if_pos rfl, h1]
    exact .done _
  | begin i s op k h1 h2 =>
    refine ⟨i, by rw [h1]; simp, ?_, fun j hj => load_put fun op' k' _ _ => left_frame ?_ rfl rfl rfl rfl⟩
    · rw [load_call h1, load_call (w := w.put _ _ _) h1, put_self]
      refine .right _ (.left _ _ ?_)
      show place _ (((w.line (U.proc i) s).conn.goto i (.called (U.call s op))).pc i) < place _ ((w.line (U.proc i) s).conn.pc i)
      rw [Sched.goto_pc, if_pos rfl, h2]
      simp only [place, Sched.At.cost]; omega
    · show ((w.line (U.proc i) s).conn.goto i (.called (U.call s op))).pc j = _
      rw [Sched.goto_pc, if_neg hj]
  | work p s c' h1 h2 =>
    have hc : c' ≠ (w.line p s).conn := by
      rintro rfl
      apply hne
      show ({ w with line := fun p' s' => if p' = p ∧ s' = s then w.line p s else w.line p' s' } : State S) = w
      have : (fun p' s' => if p' = p ∧ s' = s then w.line p s else w.line p' s') = w.line := by
        funext p' s'
        by_cases h' : p' = p ∧ s' = s
        · rw [if_pos h', h'.1, h'.2]
        · rw [if_neg h']
      rw [this]
    obtain ⟨i, c, g1, g2, g3⟩ := work_left2 h1 (h.sound p s) (h.fair hU p s) (h.line p s) (by have := hu p s; rw [put_self] at this; exact this) h2 hc
    obtain ⟨rfl, ⟨op, k, m1, rfl⟩, -⟩ := h.mine p s i c g1
    refine ⟨i, by rw [m1]; simp, ?_, fun j hj => load_put fun op' k' _ _ => g3 j _ hj⟩
    rw [load_call m1, load_call (w := w.put _ _ _) m1, put_self]
    exact .right _ g2
  | ret i s op k c r c' h1 h2 h3 h4 h5 =>
    obtain ⟨e1, e2, e3⟩ := step_returned h2 h3 h4 h5
    refine ⟨i, by rw [h1]; simp, .left _ _ ?_, fun j hj => ?_⟩
    · show Sub (if i = i then some (k r) else _) (w.prog i)
      rw [if_pos rfl, h1]
      exact .next s op k r
    · rw [load_set_ne hj]
      exact load_put fun op' k' _ _ => left_frame (e3 j hj) e1 rfl rfl e2
  | serve p s x y reply rest st h1 h2 =>
    have hlt := step_lt h2
    have hxne : x ≠ [] := fun hx => by subst hx; exact absurd hlt (by simp)
    have hlen := congrArg List.length h1
    simp only [List.length_drop, List.length_append] at hlen
    have he : (w.line p s).conn.ended = false := by
      cases he : (w.line p s).conn.ended with
      | false => rfl
      | true =>
        have := hv p s he
        have this : ((w.put p s _).line p s).used = _ := this
        rw [put_self] at this
        dsimp only at this
        omega
    have hph := h.line p s
    generalize (a.pending p s).map (wireOf U s) = q at hph
    generalize ph p s = o at hph
    cases hph with
    | quiet g1 g2 g3 g4 g5 =>
      exfalso
      rw [g3, (g5 he).1] at h1
      exact hxne (List.append_eq_nil_iff.1 h1.symm).1
    | dead g1 => rw [g1] at he; cases he
    | told t c r rest' g1 g2 g3 g4 g5 =>
      exfalso
      rw [g4] at h1
      exact hxne (List.append_eq_nil_iff.1 h1.symm).1
    | asking t c z todo g1 g2 g3 g4 g5 g6 =>
      obtain ⟨rfl, ⟨op, k, m1, rfl⟩, -⟩ := h.mine p s t c (op_of_talking g1)
      let l' : Line := { w.line (U.proc t) s with used := (w.line (U.proc t) s).used + (x.length - rest.length), out := (w.line (U.proc t) s).out ++ reply }
      have hload : ∀ j, load U { (w.put (U.proc t) s l') with world := World.update w.world s st, calls := w.calls + 1 } j = load U (w.put (U.proc t) s l') j := fun _ => rfl
      refine ⟨t, by rw [m1]; simp, ?_, fun j hj => (hload j).trans (load_put fun op' k' _ _ =>
        left_other rfl (not_talking (h.sound _ s).excl (Sched.At.inside_of_talking (by rw [g1]; simp)) hj))⟩
      rw [hload, load_call m1, load_call (w := w.put _ _ _) m1, put_self]
      refine .right _ ?_
      unfold left
      dsimp only [l']
      rw [g1]
      refine .right _ (.left _ _ ?_)
      simp only [Option.isSome_some, if_true]
      omega

/-- A connection changed, but not whether it is broken nor what memcached has done with it. -/
theorem goesOn_put {U : Setup S M} {w : State S} {p : Nat} {s : S} {l : Line} {e : Option (Ev M)} {x : Nat → Option (Prog S)}
    (hs : Step U w e { w.put p s l with prog := x }) (ht : ∀ d, e ≠ some (.tick d)) (hst : ∀ i m, e ≠ some (.start i m))
    (h1 : l.conn.ended = (w.line p s).conn.ended) (h2 : l.used = (w.line p s).used) {i : Nat} (h3 : l.conn.pc i ≠ (w.line p s).conn.pc i) :
    ∃ w', Spec.Wired.GoesOn U w w' := by
  refine ⟨_, e, hs, ht, hst, fun h => ?_, fun p' s' => ?_, fun p' s' _ => ?_⟩
  · have := congrArg (fun w : State S => (w.line p s).conn.pc i) h
    dsimp only at this
    rw [put_self] at this
    exact h3 this
  · show ((w.put p s l).line p' s').conn.ended = _
    rw [put_line]
    by_cases h : p' = p ∧ s' = s
    · rw [if_pos h, h.1, h.2]; exact h1
    · rw [if_neg h]
  · show ((w.put p s l).line p' s').used = _
    rw [put_line]
    by_cases h : p' = p ∧ s' = s
    · rw [if_pos h, h.1, h.2]; exact h2
    · rw [if_neg h]

/-- Somebody has not finished: something can happen. -/
theorem busy_goes {U : Setup S M} {w : State S} {a : Shaky S} {ph} (h : Sim2 U w a ph) {i : Nat} (hi : w.prog i ≠ none) :
    ∃ w', Spec.Wired.GoesOn U w w' := by
  have gotoStep : ∀ (p : Nat) (s : S) (t : Nat) (at' : Sched.At) (c' : Sched.State Nat),
      Sched.Step (U.params s (w.line p s).out) (w.line p s).conn c' → (c'.pc = ((w.line p s).conn.goto t at').pc) →
      c'.ended = (w.line p s).conn.ended → at'.op = ((w.line p s).conn.pc t).op → at' ≠ (w.line p s).conn.pc t →
      ∃ w', Spec.Wired.GoesOn U w w' := by
    intro p s t at' c' hs hpc he ho hne
    refine goesOn_put (x := w.prog) (l := { w.line p s with conn := c' }) (i := t) (.work w p s c' hs fun u => ?_) (by simp) (by simp) he rfl ?_
    · rw [hpc]; exact goto_op _ _ _ _ ho
    · show c'.pc t ≠ _
      rw [hpc, Sched.goto_pc, if_pos rfl]; exact hne
  have retStep : ∀ (t : Nat) (s : S) (op : Op) (k : Res Out → Prog S) (c : Call Out) (r : Res Out) (c' : Sched.State Nat), w.prog t = some (.call s op k) →
      Sched.Step (U.params s (w.line (U.proc t) s).out) (w.line (U.proc t) s).conn c' → ((w.line (U.proc t) s).conn.pc t).op = some c →
      c'.pc = ((w.line (U.proc t) s).conn.goto t .idle).pc → c'.ended = (w.line (U.proc t) s).conn.ended →
      c'.log = (w.line (U.proc t) s).conn.log ++ [(c, r)] → ∃ w', Spec.Wired.GoesOn U w w' := by
    intro t s op k c r c' hp hs hop hpc he hlog
    have hidle : c'.pc t = .idle := by rw [hpc, Sched.goto_pc, if_pos rfl]
    refine goesOn_put (l := { w.line (U.proc t) s with conn := c' }) (i := t) (.ret w t s op k c r c' hp hs hop hidle hlog) (by simp) (by simp) he rfl ?_
    show c'.pc t ≠ _
    rw [hidle]
    intro e
    rw [← e] at hop
    cases hop
  cases hx : w.prog i with
  | none => exact absurd hx hi
  | some x =>
    cases x with
    | ret r =>
      refine ⟨_, some (.finish i r), .finish w i r hx, by simp, by simp, fun e => ?_, fun _ _ => rfl, fun _ _ _ => rfl⟩
      have := congrArg (fun w : State S => w.prog i) e
      rw [hx] at this
      have this : (if i = i then none else w.prog i) = some (.ret r) := this
      rw [if_pos rfl] at this
      cases this
    | call s op k =>
      -- somebody inside the mutex
      have inside : ∀ t, ((w.line (U.proc i) s).conn.pc t).inside = true → ∃ w', Spec.Wired.GoesOn U w w' := by
        intro t ht
        have hg := h.sound (U.proc i) s
        cases hpc : (w.line (U.proc i) s).conn.pc t with
        | idle | called | close | closeRaw | clearRaw | closeChan | clearChan => rw [hpc] at ht; cases ht
        | locked c =>
          exact gotoStep _ s t (.writeDeadline c) _ (.pass _ t c hpc fun _ => hg.raw) rfl rfl (by rw [hpc]; rfl) (by rw [hpc]; simp)
        | writeDeadline c =>
          cases hto : U.timeout with
          | true => exact gotoStep _ s t (.readDeadline c) _ (.writeDeadline _ t c hpc hto hg.raw) rfl rfl (by rw [hpc]; rfl) (by rw [hpc]; simp)
          | false =>
            obtain ⟨-, -, wire, cmd, e1, -⟩ := h.mine _ s t c (by rw [hpc]; rfl)
            exact gotoStep _ s t (.writing c wire) _ (.noDeadline _ t c wire hpc hto e1) rfl rfl (by rw [hpc]; rfl) (by rw [hpc]; simp)
        | readDeadline c =>
          obtain ⟨-, -, wire, cmd, e1, -⟩ := h.mine _ s t c (by rw [hpc]; rfl)
          exact gotoStep _ s t (.writing c wire) _ (.readDeadline _ t c wire hpc hg.raw e1) rfl rfl (by rw [hpc]; rfl) (by rw [hpc]; simp)
        | writing c todo =>
          cases hw : (w.line (U.proc i) s).conn.werr with
          | true =>
            obtain ⟨hpt, ⟨op', k', m1, -⟩, -⟩ := h.mine _ s t c (by rw [hpc]; rfl)
            rw [hpt] at hpc hw
            exact retStep t s op' k' c (.err .io) _ m1 (.writeFails _ t c todo hpc (.inr (.inr (.inl hw)))) (by rw [hpc]; rfl) rfl rfl rfl
          | false =>
            cases todo with
            | nil => exact gotoStep _ s t (.reading c) _ (.written _ t c hpc hw) rfl rfl (by rw [hpc]; rfl) (by rw [hpc]; simp)
            | cons b bs =>
              exact gotoStep _ s t (.writing c []) _ (.write _ t c (b :: bs) [] (by rw [List.append_nil]; exact hpc) hg.isOpen hw) rfl rfl (by rw [hpc]; rfl) (by rw [hpc]; simp)
        | reading c =>
          have htalk : ((w.line (U.proc i) s).conn.pc t).talking = some (c, []) := by rw [hpc]; rfl
          obtain ⟨hpt, ⟨op', k', m1, m2⟩, wire, cmd, e1, e2⟩ := h.mine _ s t c (by rw [hpc]; rfl)
          cases hend : (w.line (U.proc i) s).conn.ended with
          | true =>
            rw [hpt] at hpc hend
            by_cases hr : (c.rd (w.line (U.proc t) s).conn.inbox).1 = .err .io
            · exact retStep t s op' k' c (.err .io) _ m1 (.readFails _ t c hpc hr (.inr hend)) (by rw [hpc]; rfl) rfl rfl rfl
            · exact retStep t s op' k' c _ _ m1 (.read _ t c hpc hr) (by rw [hpc]; rfl) rfl rfl rfl
          | false =>
            have hph := h.line (U.proc i) s
            have hwho := ph_of hg.excl htalk hph
            generalize (a.pending (U.proc i) s).map (wireOf U s) = q at hph
            generalize ph (U.proc i) s = o at hph hwho
            cases hph with
            | quiet g1 => rw [g1 t] at htalk; cases htalk
            | dead g1 => rw [hend] at g1; cases g1
            | asking t' c1 z todo g1 g2 g3 g4 g5 g6 =>
              rcases hwho with ⟨o, hwho⟩ | ⟨hwho, -⟩
              rotate_left
              · cases hwho
              injection hwho with hwho
              injection hwho with w1 w2
              injection w2 with w2 w3
              subst w1 w2
              rw [htalk] at g1
              injection g1 with g1
              injection g1 with _ g1
              subst g1
              rw [List.append_nil, e1] at g2
              injection g2 with g2
              subst g2
              rw [(g6 hend).1] at g4
              have hall : ∃ reply st, Mc.step (w.world s) wire = some (reply, st, []) := by
                unfold Mc.step
                rw [e2]
                cases cmd <;> exact ⟨_, _, rfl⟩
              obtain ⟨reply, st, hall⟩ := hall
              refine ⟨_, none, .serve w (U.proc i) s wire [] reply [] st (by rw [List.append_nil]; exact g4) hall, by simp, by simp, fun e => ?_, fun p' s' => ?_, fun p' s' he => ?_⟩
              · have := congrArg (fun w : State S => w.calls) e
                dsimp only at this
                omega
              · show ((w.put (U.proc i) s _).line p' s').conn.ended = _
                rw [put_line]
                by_cases h' : p' = U.proc i ∧ s' = s
                · rw [if_pos h', h'.1, h'.2]
                · rw [if_neg h']
              · show ((w.put (U.proc i) s _).line p' s').used = _
                rw [put_line]
                by_cases h' : p' = U.proc i ∧ s' = s
                · rw [h'.1, h'.2, hend] at he; cases he
                · rw [if_neg h']
            | told t' c1 r rest g1 g2 g3 g4 g5 g6 g7 =>
              rcases hwho with ⟨o, hwho⟩ | ⟨hwho, -⟩
              rotate_left
              · cases hwho
              injection hwho with hwho
              injection hwho with w1 w2
              injection w2 with w2 w3
              subst w1 w2
              cases rest with
              | cons b bs =>
                refine ⟨_, none, .work w (U.proc i) s { (w.line (U.proc i) s).conn with
                    got := (w.line (U.proc i) s).conn.got ++ (b :: bs), inbox := (w.line (U.proc i) s).conn.inbox ++ (b :: bs) }
                    (.arrive _ (b :: bs) [] hg.isOpen hend (by rw [List.append_nil]; exact g5 hend)) fun _ => rfl, by simp, by simp, fun e => ?_, fun p' s' => ?_, fun p' s' he => ?_⟩
                · have := congrArg (fun w : State S => (w.line (U.proc i) s).conn.got.length) e
                  dsimp only at this
                  rw [put_self] at this
                  simp at this
                · rw [put_line]
                  by_cases h' : p' = U.proc i ∧ s' = s
                  · rw [if_pos h', h'.1, h'.2]
                  · rw [if_neg h']
                · rw [put_line]
                  by_cases h' : p' = U.proc i ∧ s' = s
                  · rw [if_pos h', h'.1, h'.2]
                  · rw [if_neg h']
              | nil =>
                rw [List.append_nil] at g6
                have hr : (c1.rd (w.line (U.proc i) s).conn.inbox).1 ≠ .err .io := by rw [g6]; exact g7
                rw [hpt] at hpc hr
                exact retStep t' s op' k' c1 _ _ m1 (.read _ t' c1 hpc hr) (by rw [hpc]; rfl) rfl rfl rfl
      cases hpc : (w.line (U.proc i) s).conn.pc i with
      | idle =>
        refine goesOn_put (x := w.prog) (i := i) (.begin w i s op k hx hpc) (by simp) (by simp) rfl rfl ?_
        show ((w.line (U.proc i) s).conn.goto i (.called (U.call s op))).pc i ≠ _
        rw [Sched.goto_pc, if_pos rfl, hpc]; simp
      | called c =>
        cases hl : (w.line (U.proc i) s).conn.lock with
        | none =>
          exact gotoStep _ s i (.locked c) { (w.line (U.proc i) s).conn.goto i (.locked c) with lock := some i } (.lock _ i c hpc hl) rfl rfl (by rw [hpc]; rfl) (by rw [hpc]; simp)
        | some t => exact inside t (((h.sound (U.proc i) s).excl t).2 hl)
      | locked c => exact inside i (by rw [hpc]; rfl)
      | writeDeadline c => exact inside i (by rw [hpc]; rfl)
      | readDeadline c => exact inside i (by rw [hpc]; rfl)
      | writing c todo => exact inside i (by rw [hpc]; rfl)
      | reading c => exact inside i (by rw [hpc]; rfl)
      | close | closeRaw | clearRaw | closeChan | clearChan =>
        have := (h.sound (U.proc i) s).idle i (by rw [hpc]; rfl)
        rw [hpc] at this
        cases this

/-! ### Whole runs -/

/-- As the other system, which has come here with the calls of `tr`. -/
def Inv2 (U : Setup S M) (w0 : World S) (tr : List (Ev M)) (w : State S) : Prop :=
  ∃ l a ph, ShakyRun U.call U.method U.proc (Shaky.start w0) l a ∧ (∃ more, seenOf l = tr ++ more ∧ Spec.Wired.starts more = []) ∧ Sim2 U w a ph

theorem Inv2.goes {U : Setup S M} (hU : Readers U) {w0 : World S} {tr : List (Ev M)}
    (hp : ∀ l a, ShakyRun U.call U.method U.proc (Shaky.start w0) l a → Spec.Wired.Upto tr (seenOf l) → NextFine U.call a)
    {w w' : State S} (h : Inv2 U w0 tr w) (hs : Spec.Wired.GoesOn U w w') : Inv2 U w0 tr w' := by
  obtain ⟨l, a, ph, h1, ⟨more, h2, h5⟩, h3⟩ := h
  obtain ⟨e, hs, ht, hst, -, -, -⟩ := hs
  obtain ⟨m, a', ph', g1, g2, -, g4⟩ := sim2_step hU hs h3 (hp l a h1 (.inr ⟨more, h2, h5⟩))
  refine ⟨l ++ m, a', ph', g1 l _ h1, ⟨more ++ e.toList, by rw [seenOf_append, h2, g2, List.append_assoc], ?_⟩, g4⟩
  rw [starts_append, h5]
  cases e with
  | none => rfl
  | some e => cases e with
    | tick d => exact absurd rfl (ht d)
    | start i m => exact absurd rfl (hst i m)
    | finish i r => rfl

theorem goes_among {U : Setup S M} {w w' : State S} (hs : Spec.Wired.GoesOn U w w') {ts : List Nat} (h : ∀ i, w.prog i ≠ none → i ∈ ts) :
    ∀ i, w'.prog i ≠ none → i ∈ ts := by
  obtain ⟨e, hs, ht, hst, -, -, -⟩ := hs
  have key : ∀ {w' : State S} {i : Nat} {x : Option (Prog S)}, w.prog i ≠ none → w'.prog = (w.set i x).prog →
      ∀ j, w'.prog j ≠ none → j ∈ ts := fun {w' i x} hi hw j hj => by
    by_cases hji : j = i
    · rw [hji]; exact h i hi
    · refine h j ?_
      rw [hw] at hj
      have hj : (if j = i then x else w.prog j) ≠ none := hj
      rwa [if_neg hji] at hj
  cases hs with
  | tick | begin | work | serve => exact h
  | start i m h1 => exact absurd rfl (hst i m)
  | finish i r h1 => exact key (i := i) (by rw [h1]; simp) rfl
  | ret i s op k c r c' h1 => exact key (i := i) (by rw [h1]; simp) rfl

theorem goes_acc {U : Setup S M} (hU : Readers U) {w0 : World S} {tr : List (Ev M)}
    (hp : ∀ l a, ShakyRun U.call U.method U.proc (Shaky.start w0) l a → Spec.Wired.Upto tr (seenOf l) → NextFine U.call a)
    {ts : List Nat} {w : State S} (h : Inv2 U w0 tr w) (hts : ∀ i, w.prog i ≠ none → i ∈ ts) :
    Acc (fun y x => Spec.Wired.GoesOn U x y) w := by
  have key : ∀ f : Nat → Option (Prog S) × Nat × Nat × Nat, Acc (Down Lower ts) f → ∀ w, load U w = f → Inv2 U w0 tr w →
      (∀ i, w.prog i ≠ none → i ∈ ts) → Acc (fun y x => Spec.Wired.GoesOn U x y) w := by
    intro f hf
    induction hf with
    | intro f _ ih =>
      intro w hw hi hts
      refine ⟨_, fun w' hs => ?_⟩
      obtain ⟨-, a, ph, -, -, hsim⟩ := id hi
      obtain ⟨i, h1, h2, h3⟩ := goes_load hU hsim hs
      subst hw
      exact ih (load U w') ⟨i, hts i h1, h2, h3⟩ w' rfl (hi.goes hU hp hs) (goes_among hs hts)
  exact key _ (down_acc lower_wf ts _) w rfl h hts

theorem run_inv2 {U : Setup S M} (hU : Clients U) {w : World S} {tr : List (Ev M)} {x : State S} (hr : Run U (State.init w) tr x)
    (hp : ∀ l a, ShakyRun U.call U.method U.proc (Shaky.start w) l a → Spec.Wired.Upto tr (seenOf l) → NextFine U.call a) :
    Inv2 U w tr x := by
  obtain ⟨l, a, ph, h1, h2, -, h4⟩ := sim2_run hU.readers hr (sim2_init U w) fun l a hl hv _ => hp l a hl (.inl hv)
  exact ⟨l, a, ph, h1, ⟨[], by rw [h2, List.append_nil], rfl⟩, h4⟩

/-- **C85**: without new calls, and once no more connections break, only finitely many things happen (other than
memcached working through what has reached it on broken connections). -/
theorem C85_finite {U : Setup S M} (hU : Clients U) {w : World S} {tr : List (Ev M)} {x : State S} (hr : Run U (State.init w) tr x)
    (hp : ∀ l a, ShakyRun U.call U.method U.proc (Shaky.start w) l a → Spec.Wired.Upto tr (seenOf l) → NextFine U.call a) :
    ¬ ∃ f : Nat → State S, f 0 = x ∧ ∀ n, Spec.Wired.GoesOn U (f n) (f (n + 1)) := by
  rintro ⟨f, h0, hf⟩
  obtain ⟨ts, hts⟩ := run_among hr
  exact Sched.no_descent (goes_acc hU.readers hp (run_inv2 hU hr hp) hts) f h0 hf

/-- **C85**: as long as a method has not returned, something can happen, whatever connections have broken. -/
theorem C85_no_deadlock {U : Setup S M} (hU : Clients U) {w : World S} {tr : List (Ev M)} {x : State S} (hr : Run U (State.init w) tr x)
    (hp : ∀ l a, ShakyRun U.call U.method U.proc (Shaky.start w) l a → Spec.Wired.Upto tr (seenOf l) → NextFine U.call a)
    (hb : ¬ Spec.Wired.AllBack x) : ∃ y, Spec.Wired.GoesOn U x y := by
  obtain ⟨l, a, ph, h1, h2, h3⟩ := run_inv2 hU hr hp
  obtain ⟨i, hi⟩ : ∃ i, x.prog i ≠ none := Classical.byContradiction fun hn => hb fun i => Classical.byContradiction fun hi => hn ⟨i, hi⟩
  exact busy_goes h3 hi

theorem goes_run {U : Setup S M} {x y : State S} (h : Spec.Wired.GoesOn U x y) :
    ∃ tr', Run U x tr' y ∧ Spec.Wired.starts tr' = [] := by
  obtain ⟨e, hs, ht, hst, -⟩ := h
  refine ⟨[] ++ e.toList, .snoc .nil hs, ?_⟩
  cases e with
  | none => rfl
  | some e => cases e with
    | tick d => exact absurd rfl (ht d)
    | start i m => exact absurd rfl (hst i m)
    | finish i r => rfl

/-- **C85**: whatever connections have broken, every run can be continued, without new calls and without further
connections breaking, until all methods have returned. -/
theorem C85_run_on {U : Setup S M} (hU : Clients U) {w : World S} {tr : List (Ev M)} {x : State S} (hr : Run U (State.init w) tr x)
    (hp : ∀ l a, ShakyRun U.call U.method U.proc (Shaky.start w) l a → Spec.Wired.Upto tr (seenOf l) → NextFine U.call a) :
    ∃ tr' y, Run U x tr' y ∧ Spec.Wired.starts tr' = [] ∧ (∀ p s, (y.line p s).conn.ended = (x.line p s).conn.ended) ∧ Spec.Wired.AllBack y := by
  obtain ⟨ts, hts⟩ := run_among hr
  have hacc := goes_acc hU.readers hp (run_inv2 hU hr hp) hts
  have key : ∀ z, Acc (fun y x => Spec.Wired.GoesOn U x y) z → ∀ tr1, Run U x tr1 z → Spec.Wired.starts tr1 = [] →
      (∀ p s, (z.line p s).conn.ended = (x.line p s).conn.ended) →
      ∃ tr' y, Run U x tr' y ∧ Spec.Wired.starts tr' = [] ∧ (∀ p s, (y.line p s).conn.ended = (x.line p s).conn.ended) ∧ Spec.Wired.AllBack y := by
    intro z hz
    induction hz with
    | intro z _ ih =>
      intro tr1 hr1 hs1 up1
      by_cases hb : Spec.Wired.AllBack z
      · exact ⟨tr1, z, hr1, hs1, up1, hb⟩
      · obtain ⟨y, hy⟩ := C85_no_deadlock hU (hr.trans hr1) (fun l a hl hv => hp l a hl (hv.before hs1)) hb
        obtain ⟨tr2, hr2, hs2⟩ := goes_run hy
        refine ih y hy (tr1 ++ tr2) (hr1.trans hr2) (by rw [starts_append, hs1, hs2]; rfl) fun p s => ?_
        obtain ⟨_, _, _, _, _, hu, _⟩ := hy
        rw [hu, up1]
  exact key x hacc [] .nil rfl fun _ _ => rfl

/-! ### Methods of `SinglePool` -/

section
variable {H : Hashes} {name : S → Bytes} {r : Ring S} {p : Bytes → S} {U : Setup S Op} {w : World S} {tr : List (Ev Op)} {x : State S}

theorem FrailUse.fine (c : FrailUse U H name r p w tr x) : ∀ l a, ShakyRun U.call U.method U.proc (Shaky.start w) l a →
    Spec.Wired.Upto tr (seenOf l) → NextFine U.call a := by
  intro l a hl hv
  obtain ⟨order, orderS, hm⟩ := c.methods
  have hst := hv.starts
  rw [c.conns, hm] at hl
  obtain ⟨m, z, -, -, -, g, g'⟩ := frail_run c.pick hl (fun x hx => c.ops x.1 x.2 (hst.subset hx)) c.stores fun s => by
    have := c.cas s
    have := hst.length_le
    omega
  rw [c.conns]
  exact g.fine fun s => (g' s).1

/-- **C85**: methods of `SinglePool` on one key return, whatever connections have broken. -/
theorem C85_pool_run_on (c : FrailUse U H name r p w tr x) :
    (∃ tr' y, FrailUse U H name r p w (tr ++ tr') y ∧ Spec.Wired.starts tr' = [] ∧ (∀ p s, (y.line p s).conn.ended = (x.line p s).conn.ended) ∧ Spec.Wired.AllBack y)
      ∧ ¬ ∃ f : Nat → State S, f 0 = x ∧ ∀ n, Spec.Wired.GoesOn U (f n) (f (n + 1)) := by
  have hU : Clients U := .inl ⟨name, c.conns⟩
  refine ⟨?_, C85_finite hU c.run c.fine⟩
  obtain ⟨tr', y, h1, h2, h3, h4⟩ := C85_run_on hU c.run c.fine
  have hs : Spec.Wired.starts (tr ++ tr') = Spec.Wired.starts tr := by rw [starts_append, h2, List.append_nil]
  exact ⟨tr', y, ⟨c.conns, c.methods, c.pick, c.run.trans h1, by rw [hs]; exact c.ops, c.stores, by rw [hs]; exact c.cas⟩, h2, h3, h4⟩
end

end Wired
end Verif
