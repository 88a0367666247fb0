import Verif.Props.RewiredRest
/-!
C86, concluded: methods and Reconnect return, in whole runs.
-/

namespace Verif
namespace Rewired
open Kv Spec Mc Pool Cluster
open Wired (Setup Ev Sim2 Readers Clients load Lower)

variable {S M : Type} [DecidableEq S] {U : Setup S M}

/-- A client on whose Reconnect nobody is stays as it is, but for the operations on it. -/
theorem goes_quiet {w w' : State S} {a : Mended S} {ph} (h : Resim U w a ph) (hs : Spec.Rewired.GoesOn U w w') {p : Nat} {s : S}
    (hq : ∀ t, ¬ Spec.Rewired.Reconnecting w p s t) :
    (Broken w' p s ↔ Broken w p s) ∧ successes (w'.line p s).conn.log = successes (w.line p s).conn.log := by
  obtain ⟨e, hs, ht, hst, hne, hr, hend, hused⟩ := hs
  -- the client changes, but not the connection in use
  have key : ∀ {p' : Nat} {s' : S} {c' : Reconn.State Nat} {x : Nat → Option (Prog S)}, Reconn.Step (params U s' (w.line p' s').out) (w.line p' s').conn c' →
      (p = p' ∧ s = s' → c'.conn = (w.line p' s').conn.conn ∧ (view c').ended = (view (w.line p' s').conn).ended) →
      (Broken { w.put p' s' { w.line p' s' with conn := c' } with prog := x } p s ↔ Broken w p s)
        ∧ successes (({ w.put p' s' { w.line p' s' with conn := c' } with prog := x } : State S).line p s).conn.log = successes (w.line p s).conn.log := by
    intro p' s' c' x hstep hk
    show (((w.put p' s' { w.line p' s' with conn := c' }).line p s).conn.cur.ended = true ∨ ((w.put p' s' { w.line p' s' with conn := c' }).line p s).conn.cur.isOpen = false ↔ Broken w p s)
      ∧ successes ((w.put p' s' { w.line p' s' with conn := c' }).line p s).conn.log = _
    rw [put_line]
    by_cases e : p = p' ∧ s = s'
    · obtain ⟨k1, k2⟩ := hk e
      obtain ⟨rfl, rfl⟩ := e
      rw [if_pos ⟨rfl, rfl⟩]
      obtain ⟨l2, -, -⟩ := line_step (h.inv p s) hstep
      refine ⟨?_, ?_⟩
      · have k2 : (c'.cur.ended || !c'.cur.isOpen) = ((w.line p s).conn.cur.ended || !(w.line p s).conn.cur.isOpen) := k2
        have : ∀ a b : Bool, (a || !b) = true ↔ a = true ∨ b = false := by decide
        unfold Broken
        rw [← this, ← this, k2]
      · have n1 := l2.gen.num
        have n2 := (h.inv p s).gen.num
        show successes c'.log = _
        rw [← n1, ← n2]; exact k1
    · rw [if_neg e]; exact ⟨Iff.rfl, rfl⟩
  cases hs with
  | tick | start | finish => exact ⟨Iff.rfl, rfl⟩
  | begin i s' op k h1 h2 =>
    show (((w.put (U.proc i) s' _).line p s).conn.cur.ended = true ∨ ((w.put (U.proc i) s' _).line p s).conn.cur.isOpen = false ↔ Broken w p s)
      ∧ successes ((w.put (U.proc i) s' _).line p s).conn.log = _
    rw [put_line]
    by_cases e : p = U.proc i ∧ s = s'
    · obtain ⟨rfl, rfl⟩ := e
      rw [if_pos ⟨rfl, rfl⟩]; exact ⟨Iff.rfl, rfl⟩
    · rw [if_neg e]; exact ⟨Iff.rfl, rfl⟩
  | work p' s' c' h1 h2 =>
    refine key (x := w.prog) h1 ?_
    rintro ⟨rfl, rfl⟩
    have hself : (w.put p s { w.line p s with conn := c' }).line p s = { w.line p s with conn := c' } := put_lineSelf _ _ _ _
    have hc : c' ≠ (w.line p s).conn := by
      rintro rfl
      exact hne (put_same w p s)
    rcases work_view (h.inv p s) h1 h2 hc (fun t ht => by
        have := hr p s t
        unfold Spec.Rewired.Reconnecting at this
        rw [hself] at this
        exact this ht) (fun g => by
          have := hend p s g
          rw [hself] at this
          exact this) with ⟨g1, g2, g3, g4, g5⟩ | ⟨t, g1, g2, g3, g4⟩
    · exact ⟨g3, g4⟩
    · refine absurd (fun a ha => ?_) (hq t)
      rw [rank_zero.2 ⟨a, ha⟩] at g1
      omega
  | ret i s' op k c r c' h1 h2 h3 h4 h5 =>
    refine key h2 ?_
    rintro ⟨rfl, rfl⟩
    obtain ⟨k1, k2, k3⟩ := ret_keeps h2 h3 h4 h5
    refine ⟨k1, view_ended k1 k2 fun g => ?_⟩
    have := hend (U.proc i) s g
    have this : ((((w.put (U.proc i) s { w.line (U.proc i) s with conn := c' }).line (U.proc i) s).conn.conns g)).ended = _ := this
    rw [put_lineSelf] at this
    exact this
  | serve p' s' g x y reply rest st h1 h2 =>
    show (((w.put p' s' _).line p s).conn.cur.ended = true ∨ ((w.put p' s' _).line p s).conn.cur.isOpen = false ↔ Broken w p s)
      ∧ successes ((w.put p' s' _).line p s).conn.log = _
    rw [put_line]
    by_cases e : p = p' ∧ s = s'
    · obtain ⟨rfl, rfl⟩ := e
      rw [if_pos ⟨rfl, rfl⟩]; exact ⟨Iff.rfl, rfl⟩
    · rw [if_neg e]; exact ⟨Iff.rfl, rfl⟩

/-- As the other system, which has come here with the calls of `tr`. -/
def Inv3 (U : Setup S M) (w0 : World S) (tr : List (Ev M)) (w : State S) : Prop :=
  ∃ l a ph, MendedRun U.call U.method U.proc (Mended.start w0) l a ∧ (∃ more, seenOf l = tr ++ more ∧ Spec.Wired.starts more = []) ∧ Resim U w a ph

theorem Inv3.goes (hU : Readers U) {w0 : World S} {tr : List (Ev M)}
    (hp : ∀ l a, MendedRun U.call U.method U.proc (Mended.start w0) l a → Spec.Wired.Upto tr (seenOf l) → NextFine U.call a.now)
    {w w' : State S} (h : Inv3 U w0 tr w) (hs : Spec.Rewired.GoesOn U w w') : Inv3 U w0 tr w' := by
  obtain ⟨l, a, ph, h1, ⟨more, h2, h5⟩, h3⟩ := h
  obtain ⟨e, hs, ht, hst, -, -, -⟩ := hs
  obtain ⟨m, a', ph', g1, g2, -, g4⟩ := resim_step hU hs h3 (hp l a h1 (.inr ⟨more, h2, h5⟩))
  refine ⟨l ++ m, a', ph', g1 l _ h1, ⟨more ++ e.toList, by rw [Wired.seenOf_append, h2, g2, List.append_assoc], ?_⟩, g4⟩
  rw [Wired.starts_append, h5]
  cases e with
  | none => rfl
  | some e => cases e with
    | tick d => exact absurd rfl (ht d)
    | start i m => exact absurd rfl (hst i m)
    | finish i r => rfl

theorem goes_among {w w' : State S} (hs : Spec.Rewired.GoesOn U w w') {ts : List Nat} (h : ∀ i, w.prog i ≠ none → i ∈ ts) :
    ∀ i, w'.prog i ≠ none → i ∈ ts := by
  obtain ⟨e, hs, ht, hst, -, -, -⟩ := hs
  have key : ∀ {w' : State S} {i : Nat} {x : Option (Prog S)}, w.prog i ≠ none → w'.prog = (w.set i x).prog →
      ∀ j, w'.prog j ≠ none → j ∈ ts := fun {w' i x} hi hw j hj => by
    by_cases hji : j = i
    · rw [hji]; exact h i hi
    · refine h j ?_
      rw [hw] at hj
      have hj : (if j = i then x else w.prog j) ≠ none := hj
      rwa [if_neg hji] at hj
  cases hs with
  | tick | begin | work | serve => exact h
  | start i m h1 => exact absurd rfl (hst i m)
  | finish i r h1 => exact key (i := i) (by rw [h1]; simp) rfl
  | ret i s op k c r c' h1 => exact key (i := i) (by rw [h1]; simp) rfl

theorem run_among {w0 : World S} {tr : List (Ev M)} {w : State S} (h : Run U (State.init w0) tr w) :
    ∃ ts : List Nat, ∀ i, w.prog i ≠ none → i ∈ ts := by
  induction h with
  | nil => exact ⟨[], fun i hi => absurd rfl hi⟩
  | snoc _ hs ih =>
    obtain ⟨ts, hts⟩ := ih
    have key : ∀ {w : State S} {w' : State S} {i : Nat} {x : Option (Prog S)}, (∀ i, w.prog i ≠ none → i ∈ ts) → w'.prog = (w.set i x).prog →
        ∃ ts : List Nat, ∀ i, w'.prog i ≠ none → i ∈ ts := fun {w w' i x} h hw => ⟨i :: ts, fun j hj => by
      by_cases hji : j = i
      · rw [hji]; exact .head _
      · refine .tail _ (h j ?_)
        rw [hw] at hj
        have hj : (if j = i then x else w.prog j) ≠ none := hj
        rwa [if_neg hji] at hj⟩
    cases hs with
    | tick | begin | work | serve => exact ⟨ts, hts⟩
    | start i m h1 => exact key hts rfl
    | finish i r h1 => exact key hts rfl
    | ret i s op k c r c' => exact key (w := ‹State S›) hts rfl

/-- At each step of a client at most one goroutine moves. -/
theorem one_moves {P : Reconn.Params Nat} {c c' : Reconn.State Nat} (hs : Reconn.Step P c c') : ∃ t, ∀ u, u ≠ t → c'.pc u = c.pc u := by
  have gone : ∀ (t : Nat) (a : Reconn.At) (u : Nat), u ≠ t → (c.goto t a).pc u = c.pc u := fun t a u hu => if_neg hu
  cases hs with
  | arrive | hangUp => exact ⟨0, fun _ _ => rfl⟩
  | writeDeadlineNil | readDeadlineNil | closeRawNil | closeChanPanic => exact ⟨0, fun _ _ => rfl⟩
  | call t | lock t | refuse t | pass t | writeDeadline t | readDeadline t | noDeadline t | unencodable t | unencodablePanic t | write t | writeFails t | written t
  | read t | readFails t | readTimeout t | callClose t | closeAgain t | closeGo t | closeRaw t | clearRaw t | closeChan t | clearChan t | callReconnect t
  | lockReconnect t | noRaw t | shut t | shutFails t | dial t | dialFails t | setRaw t | setConn t => exact ⟨t, gone t _⟩

/-- Only finitely many goroutines are in Reconnect. -/
theorem run_recon {w0 : World S} {tr : List (Ev M)} {w : State S} (h : Run U (State.init w0) tr w) :
    ∃ ts : List (Nat × S × Nat), ∀ p s t, Spec.Rewired.Reconnecting w p s t → (p, s, t) ∈ ts := by
  induction h with
  | nil => exact ⟨[], fun p s t h => absurd rfl (h .idle)⟩
  | @snoc tr e w w' _ hs ih =>
    obtain ⟨ts, hts⟩ := ih
    have key : ∀ {p : Nat} {s : S} {l : Line}, (∃ t, ∀ u, u ≠ t → l.conn.pc u = (w.line p s).conn.pc u) →
        ∃ ts : List (Nat × S × Nat), ∀ p' s' t, Spec.Rewired.Reconnecting (w.put p s l) p' s' t → (p', s', t) ∈ ts := by
      rintro p s l ⟨t, ht⟩
      refine ⟨(p, s, t) :: ts, fun p' s' u hu => ?_⟩
      unfold Spec.Rewired.Reconnecting at hu
      rw [put_line] at hu
      by_cases e : p' = p ∧ s' = s
      · obtain ⟨rfl, rfl⟩ := e
        rw [if_pos ⟨rfl, rfl⟩] at hu
        by_cases e : u = t
        · subst e; exact .head _
        · rw [ht u e] at hu; exact .tail _ (hts _ _ _ hu)
      · rw [if_neg e] at hu; exact .tail _ (hts _ _ _ hu)
    cases hs with
    | tick | start | finish => exact ⟨ts, hts⟩
    | begin i s op k _ _ => exact key ⟨i, fun u hu => if_neg hu⟩
    | work p s c' h1 _ => exact key (one_moves h1)
    | ret i s op k c r c' _ h1 => exact key (one_moves h1)
    | serve p s g x y reply rest st _ _ => exact key ⟨0, fun _ _ => rfl⟩

/-- What is left to do, for the methods and for Reconnect. -/
def toDo (U : Setup S M) (w : State S) : Nat ⊕ (Nat × S × Nat) → Option (Prog S) × Nat × Nat × Nat
  | .inl i => load U w.view i
  | .inr (p, s, t) => (none, w.rank p s t, 0, 0)

theorem goes_acc (hU : Readers U) {w0 : World S} {tr : List (Ev M)}
    (hp : ∀ l a, MendedRun U.call U.method U.proc (Mended.start w0) l a → Spec.Wired.Upto tr (seenOf l) → NextFine U.call a.now)
    {ts : List Nat} {rs : List (Nat × S × Nat)} {w : State S} (h : Inv3 U w0 tr w) (hts : ∀ i, w.prog i ≠ none → i ∈ ts)
    (hrs : ∀ p s t, Spec.Rewired.Reconnecting w p s t → (p, s, t) ∈ rs) :
    Acc (fun y x => Spec.Rewired.GoesOn U x y) w := by
  have key : ∀ f : Nat ⊕ (Nat × S × Nat) → Option (Prog S) × Nat × Nat × Nat, Acc (Wired.Down Lower (ts.map .inl ++ rs.map .inr)) f → ∀ w, toDo U w = f → Inv3 U w0 tr w →
      (∀ i, w.prog i ≠ none → i ∈ ts) → (∀ p s t, Spec.Rewired.Reconnecting w p s t → (p, s, t) ∈ rs) → Acc (fun y x => Spec.Rewired.GoesOn U x y) w := by
    intro f hf
    induction hf with
    | intro f _ ih =>
      intro w hw hi hts hrs
      refine ⟨_, fun w' hs => ?_⟩
      obtain ⟨-, a, ph, -, -, hsim⟩ := id hi
      have hrs' : ∀ p s t, Spec.Rewired.Reconnecting w' p s t → (p, s, t) ∈ rs := fun p s t ht => hrs p s t (by
        obtain ⟨_, _, _, _, _, hr, _⟩ := hs
        exact hr p s t ht)
      subst hw
      refine ih (toDo U w') ?_ w' rfl (hi.goes hU hp hs) (goes_among hs hts) hrs'
      rcases goes_view hsim hs with ⟨g1, g2⟩ | ⟨p, s, t, g1, g2, g3⟩
      · obtain ⟨i, h1, h2, h3⟩ := Wired.goes_load hU hsim.now g1
        refine ⟨.inl i, List.mem_append_left _ (List.mem_map_of_mem (hts i h1)), h2, fun j hj => ?_⟩
        cases j with
        | inl j => exact h3 j fun e => hj (by rw [e])
        | inr j =>
          obtain ⟨p, s, t⟩ := j
          show (none, w'.rank p s t, 0, 0) = (none, w.rank p s t, 0, 0)
          rw [g2]
      · refine ⟨.inr (p, s, t), List.mem_append_right _ (List.mem_map_of_mem (hrs p s t fun a ha => ?_)), ?_, fun j hj => ?_⟩
        · have : w.rank p s t = 0 := rank_zero.2 ⟨a, ha⟩
          omega
        · exact .right _ (.left _ _ g1)
        · cases j with
          | inl j => exact g3 j
          | inr j =>
            obtain ⟨p', s', t'⟩ := j
            show (none, w'.rank p' s' t', 0, 0) = (none, w.rank p' s' t', 0, 0)
            rw [g2 p' s' t' fun ⟨e1, e2, e3⟩ => hj (by rw [e1, e2, e3])]
  exact key _ (Wired.down_acc Wired.lower_wf _ _) w rfl h hts hrs

theorem run_inv3 (hU : Clients U) {w : World S} {tr : List (Ev M)} {x : State S} (hr : Run U (State.init w) tr x)
    (hp : ∀ l a, MendedRun U.call U.method U.proc (Mended.start w) l a → Spec.Wired.Upto tr (seenOf l) → NextFine U.call a.now) :
    Inv3 U w tr x := by
  obtain ⟨l, a, ph, h1, h2, -, h4⟩ := resim_run hU.readers hr (resim_init U w) fun l a hl hv _ => hp l a hl (.inl hv)
  exact ⟨l, a, ph, h1, ⟨[], by rw [h2, List.append_nil], rfl⟩, h4⟩

/-- **C86**: without new calls of methods or of Reconnect, and once no more connections break, only finitely many things
happen (other than memcached working through what has reached it on connections that are broken or replaced). -/
theorem C86_finite (hU : Clients U) {w : World S} {tr : List (Ev M)} {x : State S} (hr : Run U (State.init w) tr x)
    (hp : ∀ l a, MendedRun U.call U.method U.proc (Mended.start w) l a → Spec.Wired.Upto tr (seenOf l) → NextFine U.call a.now) :
    ¬ ∃ f : Nat → State S, f 0 = x ∧ ∀ n, Spec.Rewired.GoesOn U (f n) (f (n + 1)) := by
  rintro ⟨f, h0, hf⟩
  obtain ⟨ts, hts⟩ := run_among hr
  obtain ⟨rs, hrs⟩ := run_recon hr
  exact Sched.no_descent (goes_acc hU.readers hp (run_inv3 hU hr hp) hts hrs) f h0 hf

/-- **C86**: as long as a method or Reconnect has not returned, something can happen. -/
theorem C86_no_deadlock (hU : Clients U) {w : World S} {tr : List (Ev M)} {x : State S} (hr : Run U (State.init w) tr x)
    (hp : ∀ l a, MendedRun U.call U.method U.proc (Mended.start w) l a → Spec.Wired.Upto tr (seenOf l) → NextFine U.call a.now)
    (hb : ¬ Spec.Rewired.AllBack x) : ∃ y, Spec.Rewired.GoesOn U x y := by
  obtain ⟨l, a, ph, h1, h2, h3⟩ := run_inv3 hU hr hp
  by_cases hi : ∃ i, x.prog i ≠ none
  · obtain ⟨i, hi⟩ := hi
    exact busy_goes h3 hi
  · by_cases hq : ∃ p s t, Spec.Rewired.Reconnecting x p s t
    · obtain ⟨p, s, t, hq⟩ := hq
      exact recon_goes h3 hq
    · exact absurd ⟨fun i => Classical.byContradiction fun h => hi ⟨i, h⟩, fun p s t h => hq ⟨p, s, t, h⟩⟩ hb

theorem goes_run {x y : State S} (h : Spec.Rewired.GoesOn U x y) : ∃ tr', Run U x tr' y ∧ Spec.Wired.starts tr' = [] := by
  obtain ⟨e, hs, ht, hst, -⟩ := h
  refine ⟨[] ++ e.toList, .snoc .nil hs, ?_⟩
  cases e with
  | none => rfl
  | some e => cases e with
    | tick d => exact absurd rfl (ht d)
    | start i m => exact absurd rfl (hst i m)
    | finish i r => rfl

/-- **C86**: whatever connections have broken and whoever is replacing them, every run can be continued, without new calls
and without further connections breaking, until all methods and all calls of Reconnect have returned.  Clients that nobody
is reconnecting keep the connection they have. -/
theorem C86_run_on (hU : Clients U) {w : World S} {tr : List (Ev M)} {x : State S} (hr : Run U (State.init w) tr x)
    (hp : ∀ l a, MendedRun U.call U.method U.proc (Mended.start w) l a → Spec.Wired.Upto tr (seenOf l) → NextFine U.call a.now) :
    ∃ tr' y, Run U x tr' y ∧ Spec.Wired.starts tr' = [] ∧ (∀ p s g, ((y.line p s).conn.conns g).ended = ((x.line p s).conn.conns g).ended)
      ∧ (∀ p s, (∀ t, ¬ Spec.Rewired.Reconnecting x p s t) → (Broken y p s ↔ Broken x p s) ∧ successes (y.line p s).conn.log = successes (x.line p s).conn.log)
      ∧ Spec.Rewired.AllBack y := by
  obtain ⟨ts, hts⟩ := run_among hr
  obtain ⟨rs, hrs⟩ := run_recon hr
  have hacc := goes_acc hU.readers hp (run_inv3 hU hr hp) hts hrs
  have key : ∀ z, Acc (fun y x => Spec.Rewired.GoesOn U x y) z → ∀ tr1, Run U x tr1 z → Spec.Wired.starts tr1 = [] →
      (∀ p s g, ((z.line p s).conn.conns g).ended = ((x.line p s).conn.conns g).ended) →
      (∀ p s, (∀ t, ¬ Spec.Rewired.Reconnecting x p s t) → (∀ t, ¬ Spec.Rewired.Reconnecting z p s t) ∧ (Broken z p s ↔ Broken x p s)
        ∧ successes (z.line p s).conn.log = successes (x.line p s).conn.log) →
      ∃ tr' y, Run U x tr' y ∧ Spec.Wired.starts tr' = [] ∧ (∀ p s g, ((y.line p s).conn.conns g).ended = ((x.line p s).conn.conns g).ended)
        ∧ (∀ p s, (∀ t, ¬ Spec.Rewired.Reconnecting x p s t) → (Broken y p s ↔ Broken x p s) ∧ successes (y.line p s).conn.log = successes (x.line p s).conn.log)
        ∧ Spec.Rewired.AllBack y := by
    intro z hz
    induction hz with
    | intro z _ ih =>
      intro tr1 hr1 hs1 up1 up2
      by_cases hb : Spec.Rewired.AllBack z
      · exact ⟨tr1, z, hr1, hs1, up1, fun p s hq => (up2 p s hq).2, hb⟩
      · have hp1 : ∀ l a, MendedRun U.call U.method U.proc (Mended.start w) l a → Spec.Wired.Upto (tr ++ tr1) (seenOf l) → NextFine U.call a.now :=
          fun l a hl hv => hp l a hl (hv.before hs1)
        obtain ⟨y, hy⟩ := C86_no_deadlock hU (hr.trans hr1) hp1 hb
        obtain ⟨tr2, hr2, hs2⟩ := goes_run hy
        obtain ⟨_, a, ph, _, _, hsim⟩ := run_inv3 hU (hr.trans hr1) hp1
        refine ih y hy (tr1 ++ tr2) (hr1.trans hr2) (by rw [Wired.starts_append, hs1, hs2]; rfl) (fun p s g => ?_) fun p s hq => ?_
        · obtain ⟨_, _, _, _, _, _, hu, _⟩ := hy
          rw [hu, up1]
        · obtain ⟨u1, u2, u3⟩ := up2 p s hq
          obtain ⟨v1, v2⟩ := goes_quiet hsim hy u1
          refine ⟨fun t ht => u1 t ?_, v1.trans u2, v2.trans u3⟩
          obtain ⟨_, _, _, _, _, hu, _⟩ := hy
          exact hu p s t ht
  exact key x hacc [] .nil rfl (fun _ _ _ => rfl) fun _ _ hq => ⟨hq, Iff.rfl, rfl⟩

/-! ### Methods of `SinglePool` -/

section
variable {H : Hashes} {name : S → Bytes} {r : Ring S} {p : Bytes → S} {U : Setup S Op} {w : World S} {tr : List (Ev Op)} {x : State S}

theorem PatchedUse.goesFine (c : PatchedUse U H name r p w tr x) : ∀ l a, MendedRun U.call U.method U.proc (Mended.start w) l a →
    Spec.Wired.Upto tr (seenOf l) → NextFine U.call a.now := by
  intro l a hl hv
  obtain ⟨order, orderS, hm⟩ := c.methods
  have hst := hv.starts
  rw [c.conns, hm] at hl
  obtain ⟨m, z, -, -, g⟩ := patched_run c.pick (upto_start w c.stores) hl (fun x hx => c.ops x.1 x.2 (hst.subset hx)) fun s => by
    have := c.cas s
    have := hst.length_le
    rw [List.nil_append]
    omega
  rw [c.conns]
  exact g.rel.now.fine fun s => (g.limits s).1

/-- **C86**: methods of `SinglePool` on one key, and Reconnect, return, whatever connections have broken. -/
theorem C86_pool_run_on (c : PatchedUse U H name r p w tr x) :
    (∃ tr' y, Run U x tr' y ∧ PatchedUse U H name r p w (tr ++ tr') y ∧ Spec.Wired.starts tr' = []
        ∧ (∀ p s g, ((y.line p s).conn.conns g).ended = ((x.line p s).conn.conns g).ended)
        ∧ (∀ p s, (∀ t, ¬ Spec.Rewired.Reconnecting x p s t) → (Broken y p s ↔ Broken x p s) ∧ successes (y.line p s).conn.log = successes (x.line p s).conn.log)
        ∧ Spec.Rewired.AllBack y)
      ∧ ¬ ∃ f : Nat → State S, f 0 = x ∧ ∀ n, Spec.Rewired.GoesOn U (f n) (f (n + 1)) := by
  have hU : Clients U := .inl ⟨name, c.conns⟩
  refine ⟨?_, C86_finite hU c.run c.goesFine⟩
  obtain ⟨tr', y, h1, h2, h3, h4, h5⟩ := C86_run_on hU c.run c.goesFine
  have hs : Spec.Wired.starts (tr ++ tr') = Spec.Wired.starts tr := by rw [Wired.starts_append, h2, List.append_nil]
  exact ⟨tr', y, h1, ⟨c.conns, c.methods, c.pick, c.run.trans h1, by rw [hs]; exact c.ops, c.stores, by rw [hs]; exact c.cas⟩, h2, h3, h4, h5⟩
end

end Rewired
end Verif
