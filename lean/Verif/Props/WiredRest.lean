import Verif.Props.WiredFinite
import Verif.Props.WiredCalls
/-!
C84, continued: nothing is left waiting, and every method returns.
-/

namespace Verif
namespace Wired
open Kv Spec Mc Pool Cluster

variable {S M : Type} [DecidableEq S]

theorem starts_append (l m : List (Ev M)) : Spec.Wired.starts (l ++ m) = Spec.Wired.starts l ++ Spec.Wired.starts m := by
  induction l with
  | nil => rfl
  | cons x l ih => cases x <;> simp [Spec.Wired.starts, ih]

/-- As the other system, which has come here with the calls of `tr`. -/
def Inv (U : Setup S M) (w0 : World S) (tr : List (Ev M)) (w : State S) : Prop :=
  ∃ l a, MomentRun U.call U.method ⟨w0, fun _ => none⟩ l a ∧ (∃ more, visible l = tr ++ more ∧ Spec.Wired.starts more = []) ∧ Sim U w a

theorem Inv.works {U : Setup S M} (hU : Readers U) {w0 : World S} {tr : List (Ev M)}
    (hp : ∀ l a, MomentRun U.call U.method ⟨w0, fun _ => none⟩ l a → Spec.Wired.Upto tr (visible l) → NextProper U.call a)
    {w w' : State S} (h : Inv U w0 tr w) (hs : Spec.Wired.Works U w w') : Inv U w0 tr w' := by
  obtain ⟨l, a, h1, ⟨more, h2, h5⟩, h3⟩ := h
  obtain ⟨e, hs, ht, hst, -, hu⟩ := hs
  rcases sim_step hU hs h3 (hp l a h1 (.inr ⟨more, h2, h5⟩)) hu with ⟨a', g1, -, g3⟩ | ⟨i, a', rfl, g1, -, g3⟩
  · cases e with
    | none => subst g1; exact ⟨l, a', h1, ⟨more, h2, h5⟩, g3⟩
    | some e =>
      refine ⟨l ++ [.ev e], a', .snoc h1 g1, ⟨more ++ [e], by rw [visible_append, h2, List.append_assoc]; rfl, ?_⟩, g3⟩
      rw [starts_append, h5]
      cases e with
      | tick d => exact absurd rfl (ht d)
      | start i m => exact absurd rfl (hst i m)
      | finish i r => rfl
  · exact ⟨l ++ [.run i], a', .snoc h1 g1, ⟨more, by rw [visible_append, h2, List.append_assoc]; simp [visible], h5⟩, g3⟩

/-- A list of those who have called something. -/
theorem run_among {U : Setup S M} {w0 : World S} {tr : List (Ev M)} {w : State S} (h : Run U (State.init w0) tr w) :
    ∃ ts : List Nat, ∀ i, w.prog i ≠ none → i ∈ ts := by
  induction h with
  | nil => exact ⟨[], fun i hi => absurd rfl hi⟩
  | snoc _ hs ih =>
    obtain ⟨ts, hts⟩ := ih
    have key : ∀ {w : State S} {w' : State S} {i : Nat} {x : Option (Prog S)}, (∀ i, w.prog i ≠ none → i ∈ ts) → w'.prog = (w.set i x).prog →
        ∃ ts : List Nat, ∀ i, w'.prog i ≠ none → i ∈ ts := fun {w w' i x} h hw => ⟨i :: ts, fun j hj => by
      by_cases hji : j = i
      · rw [hji]; exact .head _
      · refine .tail _ (h j ?_)
        rw [hw] at hj
        have hj : (if j = i then x else w.prog j) ≠ none := hj
        rwa [if_neg hji] at hj⟩
    cases hs with
    | tick | begin | work | serve => exact ⟨ts, hts⟩
    | start i m h1 => exact key hts rfl
    | finish i r h1 => exact key hts rfl
    | ret i s op k c r c' => exact key (w := ‹State S›) hts rfl

theorem works_among {U : Setup S M} {w w' : State S} (hs : Spec.Wired.Works U w w') {ts : List Nat} (h : ∀ i, w.prog i ≠ none → i ∈ ts) :
    ∀ i, w'.prog i ≠ none → i ∈ ts := by
  obtain ⟨e, hs, ht, hst, -, hu⟩ := hs
  have key : ∀ {w' : State S} {i : Nat} {x : Option (Prog S)}, w.prog i ≠ none → w'.prog = (w.set i x).prog →
      ∀ j, w'.prog j ≠ none → j ∈ ts := fun {w' i x} hi hw j hj => by
    by_cases hji : j = i
    · rw [hji]; exact h i hi
    · refine h j ?_
      rw [hw] at hj
      have hj : (if j = i then x else w.prog j) ≠ none := hj
      rwa [if_neg hji] at hj
  cases hs with
  | tick | begin | work | serve => exact h
  | start i m h1 => exact absurd rfl (hst i m)
  | finish i r h1 => exact key (i := i) (by rw [h1]; simp) rfl
  | ret i s op k c r c' h1 => exact key (i := i) (by rw [h1]; simp) rfl

theorem works_acc {U : Setup S M} (hU : Readers U) {w0 : World S} {tr : List (Ev M)}
    (hp : ∀ l a, MomentRun U.call U.method ⟨w0, fun _ => none⟩ l a → Spec.Wired.Upto tr (visible l) → NextProper U.call a)
    {ts : List Nat} {w : State S} (h : Inv U w0 tr w) (hts : ∀ i, w.prog i ≠ none → i ∈ ts) :
    Acc (fun y x => Spec.Wired.Works U x y) w := by
  have key : ∀ f : Nat → Option (Prog S) × Nat × Nat × Nat, Acc (Down Lower ts) f → ∀ w, load U w = f → Inv U w0 tr w →
      (∀ i, w.prog i ≠ none → i ∈ ts) → Acc (fun y x => Spec.Wired.Works U x y) w := by
    intro f hf
    induction hf with
    | intro f _ ih =>
      intro w hw hi hts
      refine ⟨_, fun w' hs => ?_⟩
      obtain ⟨-, a, -, -, hsim⟩ := id hi
      obtain ⟨i, h1, h2, h3⟩ := works_load hU hsim hs
      subst hw
      exact ih (load U w') ⟨i, hts i h1, h2, h3⟩ w' rfl (hi.works hU hp hs) (works_among hs hts)
  exact key _ (down_acc lower_wf ts _) w rfl h hts

theorem ne_of_pc {w : State S} {p : Nat} {s : S} {l : Line} {i : Nat} (h : l.conn.pc i ≠ (w.line p s).conn.pc i) : w.put p s l ≠ w := by
  intro e
  apply h
  have := congrArg (fun w : State S => (w.line p s).conn.pc i) e
  rwa [put_self] at this

theorem up_put {w : State S} (hu : Spec.Wired.Up w) {p : Nat} {s : S} {l : Line} (h : l.conn.ended = false) : Spec.Wired.Up (w.put p s l) := by
  intro p' s'
  rw [put_line]
  split
  · exact h
  · exact hu p' s'

/-- Somebody has not finished: something can happen. -/
theorem busy_works {U : Setup S M} (hU : Readers U) {w : State S} {a : Moment S} (h : Sim U w a) (ha : NextProper U.call a) (hu : Spec.Wired.Up w)
    {i : Nat} (hi : w.prog i ≠ none) : ∃ w', Spec.Wired.Works U w w' := by
  have gotoStep : ∀ (p : Nat) (s : S) (t : Nat) (at' : Sched.At) (c' : Sched.State Nat),
      Sched.Step (U.params s (w.line p s).out) (w.line p s).conn c' → (c'.pc = ((w.line p s).conn.goto t at').pc) →
      c'.ended = (w.line p s).conn.ended → at'.op = ((w.line p s).conn.pc t).op → at' ≠ (w.line p s).conn.pc t →
      ∃ w', Spec.Wired.Works U w w' := by
    intro p s t at' c' hs hpc he ho hne
    refine ⟨_, none, .work w p s c' hs fun u => ?_, by simp, by simp, ne_of_pc (i := t) ?_, up_put hu (he.trans (hu p s))⟩
    · rw [hpc]; exact goto_op _ _ _ _ ho
    · show c'.pc t ≠ _
      rw [hpc, Sched.goto_pc, if_pos rfl]; exact hne
  cases hx : w.prog i with
  | none => exact absurd hx hi
  | some x =>
    cases x with
    | ret r =>
      refine ⟨_, some (.finish i r), .finish w i r hx, by simp, by simp, fun e => ?_, hu⟩
      have := congrArg (fun w : State S => w.prog i) e
      rw [hx] at this
      have this : (if i = i then none else w.prog i) = some (.ret r) := this
      rw [if_pos rfl] at this
      cases this
    | call s op k =>
      -- somebody inside the mutex
      have inside : ∀ t, ((w.line (U.proc i) s).conn.pc t).inside = true → ∃ w', Spec.Wired.Works U w w' := by
        intro t ht
        have hg := h.good (U.proc i) s
        cases hpc : (w.line (U.proc i) s).conn.pc t with
        | idle | called | close | closeRaw | clearRaw | closeChan | clearChan => rw [hpc] at ht; cases ht
        | locked c =>
          exact gotoStep _ s t (.writeDeadline c) _ (.pass _ t c hpc fun _ => hg.raw) rfl rfl (by rw [hpc]; rfl) (by rw [hpc]; simp)
        | writeDeadline c =>
          cases hto : U.timeout with
          | true => exact gotoStep _ s t (.readDeadline c) _ (.writeDeadline _ t c hpc hto hg.raw) rfl rfl (by rw [hpc]; rfl) (by rw [hpc]; simp)
          | false =>
            obtain ⟨wire, cmd, e1, -⟩ := h.wires _ s t c (by rw [hpc]; rfl)
            exact gotoStep _ s t (.writing c wire) _ (.noDeadline _ t c wire hpc hto e1) rfl rfl (by rw [hpc]; rfl) (by rw [hpc]; simp)
        | readDeadline c =>
          obtain ⟨wire, cmd, e1, -⟩ := h.wires _ s t c (by rw [hpc]; rfl)
          exact gotoStep _ s t (.writing c wire) _ (.readDeadline _ t c wire hpc hg.raw e1) rfl rfl (by rw [hpc]; rfl) (by rw [hpc]; simp)
        | writing c todo =>
          cases todo with
          | nil => exact gotoStep _ s t (.reading c) _ (.written _ t c hpc hg.werr) rfl rfl (by rw [hpc]; rfl) (by rw [hpc]; simp)
          | cons b bs =>
            exact gotoStep _ s t (.writing c []) _ (.write _ t c (b :: bs) [] (by rw [List.append_nil]; exact hpc) hg.isOpen hg.werr) rfl rfl (by rw [hpc]; rfl) (by rw [hpc]; simp)
        | reading c =>
          have htalk : ((w.line (U.proc i) s).conn.pc t).talking = some (c, []) := by rw [hpc]; rfl
          obtain ⟨ph, hph⟩ := h.phase (U.proc i) s
          obtain ⟨o, rfl⟩ := phase_of hg.excl htalk hph
          obtain ⟨hpt, op', k', m1, m2⟩ := h.mine _ s t c (by rw [hpc]; rfl)
          cases id hph with
          | asking _ _ z todo g1 g2 g3 g4 g5 g6 =>
            rw [htalk] at g1
            injection g1 with g1
            injection g1 with _ g1
            subst g1
            rw [List.append_nil] at g2
            obtain ⟨wire, cmd, e1, e2⟩ := h.wires _ s t c (by rw [hpc]; rfl)
            rw [e1] at g2
            injection g2 with g2
            subst g2
            have hall : ∃ reply st, Mc.step (w.world s) wire = some (reply, st, []) := by
              unfold Mc.step
              rw [e2]
              cases cmd <;> exact ⟨_, _, rfl⟩
            obtain ⟨reply, st, hall⟩ := hall
            have hlt := step_lt hall
            refine ⟨_, none, .serve w (U.proc i) s wire [] reply [] st (by rw [List.append_nil]; exact g4) hall, by simp, by simp, fun e => ?_, ?_⟩
            · have := congrArg (fun w : State S => w.calls) e
              dsimp only at this
              omega
            · intro p' s'
              show ((w.put (U.proc i) s _).line p' s').conn.ended = false
              refine up_put hu ?_ p' s'
              exact hu _ s
          | told _ _ r rest g1 g2 g3 g4 g5 =>
            cases rest with
            | cons b bs =>
              refine ⟨_, none, .work w (U.proc i) s { (w.line (U.proc i) s).conn with
                  got := (w.line (U.proc i) s).conn.got ++ (b :: bs), inbox := (w.line (U.proc i) s).conn.inbox ++ (b :: bs) }
                  (.arrive _ (b :: bs) [] hg.isOpen (hu _ s) (by rw [List.append_nil]; exact g3)) fun _ => rfl, by simp, by simp, fun e => ?_, up_put hu (hu _ s)⟩
              have := congrArg (fun w : State S => (w.line (U.proc i) s).conn.got.length) e
              dsimp only at this
              rw [put_self] at this
              simp at this
            | nil =>
              rw [List.append_nil] at g3 g4
              have hr : (c.rd (w.line (U.proc i) s).conn.inbox).1 ≠ .err .io := by rw [g4]; exact g5
              rw [hpt] at hpc hr hph g4
              refine ⟨_, none, .ret w t s op' k' c r _ m1 (.read _ t c hpc hr) (by rw [hpc]; rfl) ?_ ?_, by simp, by simp, fun e => ?_, ?_⟩
              · show ((w.line (U.proc t) s).conn.goto t .idle).pc t = .idle
                rw [Sched.goto_pc, if_pos rfl]
              · show _ ++ [(c, (c.rd _).1)] = _
                rw [g4]
              · have := congrArg (fun w : State S => (w.line (U.proc t) s).conn.pc t) e
                dsimp only at this
                rw [hpc] at this
                have this : ((w.put (U.proc t) s _).line (U.proc t) s).conn.pc t = .reading c := this
                rw [put_self] at this
                have this : ((w.line (U.proc t) s).conn.goto t .idle).pc t = .reading c := this
                rw [Sched.goto_pc, if_pos rfl] at this
                cases this
              · intro p' s'
                show ((w.put (U.proc t) s _).line p' s').conn.ended = false
                refine up_put hu ?_ p' s'
                exact hu _ s
      cases hpc : (w.line (U.proc i) s).conn.pc i with
      | idle =>
        refine ⟨_, none, .begin w i s op k hx hpc, by simp, by simp, ne_of_pc (i := i) ?_, up_put hu (hu _ s)⟩
        show ((w.line (U.proc i) s).conn.goto i (.called (U.call s op))).pc i ≠ _
        rw [Sched.goto_pc, if_pos rfl, hpc]; simp
      | called c =>
        cases hl : (w.line (U.proc i) s).conn.lock with
        | none =>
          exact gotoStep _ s i (.locked c) { (w.line (U.proc i) s).conn.goto i (.locked c) with lock := some i } (.lock _ i c hpc hl) rfl rfl (by rw [hpc]; rfl) (by rw [hpc]; simp)
        | some t => exact inside t (((h.good (U.proc i) s).excl t).2 hl)
      | locked c => exact inside i (by rw [hpc]; rfl)
      | writeDeadline c => exact inside i (by rw [hpc]; rfl)
      | readDeadline c => exact inside i (by rw [hpc]; rfl)
      | writing c todo => exact inside i (by rw [hpc]; rfl)
      | reading c => exact inside i (by rw [hpc]; rfl)
      | close | closeRaw | clearRaw | closeChan | clearChan =>
        have := (h.good (U.proc i) s).idle i (by rw [hpc]; rfl)
        rw [hpc] at this
        cases this

/-! ### Whole runs -/

/-- Text or meta clients. -/
def Clients (U : Setup S M) : Prop := (∃ name : S → Bytes, U.call = fun s => textCall (name s)) ∨ U.call = fun _ => metaCall

theorem Clients.readers {U : Setup S M} (h : Clients U) : Readers U := by
  rcases h with ⟨name, h⟩ | h
  · exact text_readers h
  · exact meta_readers h

theorem starts_prefix {l m : List (Ev M)} (h : l <+: m) : Spec.Wired.starts l <+: Spec.Wired.starts m := by
  obtain ⟨t, rfl⟩ := h
  rw [starts_append]
  exact List.prefix_append _ _

theorem _root_.Verif.Spec.Wired.Upto.starts {tr tr' : List (Ev M)} (h : Spec.Wired.Upto tr tr') : Spec.Wired.starts tr' <+: Spec.Wired.starts tr := by
  rcases h with h | ⟨more, rfl, h⟩
  · exact starts_prefix h
  · rw [starts_append, h, List.append_nil]
    exact List.prefix_refl _

theorem _root_.Verif.Spec.Wired.Upto.before {tr more tr' : List (Ev M)} (h : Spec.Wired.Upto (tr ++ more) tr') (hm : Spec.Wired.starts more = []) :
    Spec.Wired.Upto tr tr' := by
  rcases h with h | ⟨more', rfl, h⟩
  · rcases List.prefix_or_prefix_of_prefix h (List.prefix_append tr more) with h' | ⟨m, rfl⟩
    · exact .inl h'
    · have := starts_prefix ((List.prefix_append_right_inj tr).1 h)
      rw [hm] at this
      exact .inr ⟨m, rfl, List.prefix_nil.1 this⟩
  · exact .inr ⟨more ++ more', List.append_assoc _ _ _, by rw [starts_append, hm, h]; rfl⟩

theorem run_inv {U : Setup S M} (hU : Clients U) {w : World S} {tr : List (Ev M)} {x : State S} (hr : Run U (State.init w) tr x)
    (up : Spec.Wired.Up x)
    (hp : ∀ l a, MomentRun U.call U.method ⟨w, fun _ => none⟩ l a → Spec.Wired.Upto tr (visible l) → NextProper U.call a) :
    Inv U w tr x := by
  obtain ⟨l, a, h1, h2, -, h4⟩ := sim_run hU.readers hr up (sim_init U w) fun l a hl hv _ => hp l a hl (.inl hv)
  exact ⟨l, a, h1, ⟨[], by rw [h2, List.append_nil], rfl⟩, h4⟩

/-- **C84**: without new calls of pool methods only finitely many things happen. -/
theorem C84_finite {U : Setup S M} (hU : Clients U) {w : World S} {tr : List (Ev M)} {x : State S} (hr : Run U (State.init w) tr x)
    (up : Spec.Wired.Up x)
    (hp : ∀ l a, MomentRun U.call U.method ⟨w, fun _ => none⟩ l a → Spec.Wired.Upto tr (visible l) → NextProper U.call a) :
    ¬ ∃ f : Nat → State S, f 0 = x ∧ ∀ n, Spec.Wired.Works U (f n) (f (n + 1)) := by
  rintro ⟨f, h0, hf⟩
  obtain ⟨ts, hts⟩ := run_among hr
  exact Sched.no_descent (works_acc hU.readers hp (run_inv hU hr up hp) hts) f h0 hf

/-- **C84**: as long as a pool method has not returned, something can happen: there is no deadlock. -/
theorem C84_no_deadlock {U : Setup S M} (hU : Clients U) {w : World S} {tr : List (Ev M)} {x : State S} (hr : Run U (State.init w) tr x)
    (up : Spec.Wired.Up x)
    (hp : ∀ l a, MomentRun U.call U.method ⟨w, fun _ => none⟩ l a → Spec.Wired.Upto tr (visible l) → NextProper U.call a)
    (hb : ¬ Spec.Wired.AllBack x) : ∃ y, Spec.Wired.Works U x y := by
  obtain ⟨l, a, h1, h2, h3⟩ := run_inv hU hr up hp
  obtain ⟨i, hi⟩ : ∃ i, x.prog i ≠ none := Classical.byContradiction fun hn => hb fun i => Classical.byContradiction fun hi => hn ⟨i, hi⟩
  exact busy_works hU.readers h3 (hp l a h1 (.inr h2)) up hi

theorem works_run {U : Setup S M} {x y : State S} (h : Spec.Wired.Works U x y) :
    ∃ tr', Run U x tr' y ∧ Spec.Wired.starts tr' = [] := by
  obtain ⟨e, hs, ht, hst, -, -⟩ := h
  refine ⟨[] ++ e.toList, .snoc .nil hs, ?_⟩
  cases e with
  | none => rfl
  | some e => cases e with
    | tick d => exact absurd rfl (ht d)
    | start i m => exact absurd rfl (hst i m)
    | finish i r => rfl

theorem Run.trans {U : Setup S M} {w0 w1 w2 : State S} {tr tr' : List (Ev M)} (h : Run U w0 tr w1) (h' : Run U w1 tr' w2) :
    Run U w0 (tr ++ tr') w2 := by
  induction h' with
  | nil => rwa [List.append_nil]
  | snoc _ hs ih => rw [← List.append_assoc]; exact .snoc ih hs

/-- **C84**: every run can be continued, without new calls, until all methods have returned. -/
theorem C84_run_on {U : Setup S M} (hU : Clients U) {w : World S} {tr : List (Ev M)} {x : State S} (hr : Run U (State.init w) tr x)
    (up : Spec.Wired.Up x)
    (hp : ∀ l a, MomentRun U.call U.method ⟨w, fun _ => none⟩ l a → Spec.Wired.Upto tr (visible l) → NextProper U.call a) :
    ∃ tr' y, Run U x tr' y ∧ Spec.Wired.starts tr' = [] ∧ Spec.Wired.Up y ∧ Spec.Wired.AllBack y := by
  obtain ⟨ts, hts⟩ := run_among hr
  have hacc := works_acc hU.readers hp (run_inv hU hr up hp) hts
  have key : ∀ z, Acc (fun y x => Spec.Wired.Works U x y) z → ∀ tr1, Run U x tr1 z → Spec.Wired.starts tr1 = [] → Spec.Wired.Up z →
      ∃ tr' y, Run U x tr' y ∧ Spec.Wired.starts tr' = [] ∧ Spec.Wired.Up y ∧ Spec.Wired.AllBack y := by
    intro z hz
    induction hz with
    | intro z _ ih =>
      intro tr1 hr1 hs1 up1
      by_cases hb : Spec.Wired.AllBack z
      · exact ⟨tr1, z, hr1, hs1, up1, hb⟩
      · obtain ⟨y, hy⟩ := C84_no_deadlock hU (hr.trans hr1) up1 (fun l a hl hv => hp l a hl (hv.before hs1)) hb
        obtain ⟨tr2, hr2, hs2⟩ := works_run hy
        refine ih y hy (tr1 ++ tr2) (hr1.trans hr2) (by rw [starts_append, hs1, hs2]; rfl) ?_
        obtain ⟨_, _, _, _, _, hu⟩ := hy
        exact hu
  exact key x hacc [] .nil rfl up

end Wired
end Verif
