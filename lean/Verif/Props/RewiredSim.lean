import Verif.Props.Rewired
/-!
C86: the running system against its specification.
-/

namespace Verif
namespace Rewired
open Kv Spec Mc Pool Cluster
open Wired (Setup Ev Ph Sim2 Sound1 wireOf IsCmd Readers Clients)
open Reconn (Excl Gen Tidy)

variable {S M : Type} [DecidableEq S]

/-- The connection in use, with its end at memcached. -/
def Line.view (l : Line) : Wired.Line := ⟨Rewired.view l.conn, l.used l.conn.conn, l.out l.conn.conn⟩

/-- The connections in use. -/
def State.view (w : State S) : Wired.State S := ⟨fun p s => (w.line p s).view, w.world, w.prog, w.calls⟩

/-- The system and its specification. -/
structure Resim (U : Setup S M) (w : State S) (a : Mended S) (ph : Nat → S → Option (Nat × Call Out × Option (Res Out))) : Prop where
  now : Sim2 U w.view a.now ph
  inv : ∀ p s, LineInv (w.line p s)
  era : ∀ p s, a.era p s = (w.line p s).conn.conn
  past : ∀ p s g, g < (w.line p s).conn.conn →
    ((w.line p s).conn.conns g).sent.drop ((w.line p s).used g) <+: ((a.past p s g).map (wireOf U s)).flatten
  cmds : ∀ p s g op, op ∈ a.past p s g → IsCmd (U.call s op)

section
variable {U : Setup S M} {w : State S} {a : Mended S} {ph : Nat → S → Option (Nat × Call Out × Option (Res Out))}

theorem put_line (w : State S) (p : Nat) (s : S) (l : Line) (p' : Nat) (s' : S) :
    (w.put p s l).line p' s' = if p' = p ∧ s' = s then l else w.line p' s' := rfl

theorem put_same (w : State S) (p : Nat) (s : S) : w.put p s (w.line p s) = w := by
  unfold State.put
  congr 1
  funext p' s'
  by_cases h : p' = p ∧ s' = s
  · rw [if_pos h, h.1, h.2]
  · rw [if_neg h]

theorem put_view (w : State S) (p : Nat) (s : S) (l : Line) : (w.put p s l).view = w.view.put p s l.view := by
  show Wired.State.mk (fun p' s' => ((w.put p s l).line p' s').view) _ _ _ = Wired.State.mk (fun p' s' => if p' = p ∧ s' = s then l.view else (w.line p' s').view) _ _ _
  congr 1
  funext p' s'
  rw [put_line]
  by_cases h : p' = p ∧ s' = s
  · rw [if_pos h, if_pos h]
  · rw [if_neg h, if_neg h]

theorem line_view (w : State S) (p : Nat) (s : S) {c' : Reconn.State Nat} (h : c'.conn = (w.line p s).conn.conn) :
    Line.view { w.line p s with conn := c' } = { w.view.line p s with conn := Rewired.view c' } := by
  show Wired.Line.mk _ ((w.line p s).used c'.conn) ((w.line p s).out c'.conn) = Wired.Line.mk _ _ _
  rw [h]
  rfl

theorem lift_run {a : Mended S} {b : Shaky S} {l : List (Deed S M)} (h : ShakyRun U.call U.method U.proc a.now l b) {a0 : Mended S} {l0 : List (Deed S M)}
    (h0 : MendedRun U.call U.method U.proc a0 l0 a) : MendedRun U.call U.method U.proc a0 (l0 ++ l) { a with now := b } := by
  induction h with
  | nil => rw [List.append_nil]; exact h0
  | @snoc l x b b' _ hs ih =>
    rw [← List.append_assoc]
    exact .snoc ih (.now { a with now := b } x b' hs)

/-- A step seen on the connections in use. -/
theorem Resim.step (hU : Readers U) (h : Resim U w a ph) (ha : NextFine U.call a.now) {w' : State S} {e : Option (Ev M)}
    (hs : Wired.Step U w.view e w'.view) (hinv : ∀ p s, LineInv (w'.line p s)) (hconn : ∀ p s, (w'.line p s).conn.conn = (w.line p s).conn.conn)
    (hold : ∀ p s g, g < (w.line p s).conn.conn →
      ((w'.line p s).conn.conns g).sent.drop ((w'.line p s).used g) = ((w.line p s).conn.conns g).sent.drop ((w.line p s).used g)) :
    ∃ l a' ph', (∀ l0 a0, MendedRun U.call U.method U.proc a0 l0 a → MendedRun U.call U.method U.proc a0 (l0 ++ l) a')
      ∧ seenOf l = e.toList ∧ w'.calls = w.calls + carriedOut l ∧ Resim U w' a' ph' := by
  obtain ⟨l, b, ph', h1, h2, h3, h4⟩ := Wired.sim2_step hU hs h.now ha
  have hrun := h1 [] a.now .nil
  refine ⟨l, { a with now := b }, ph', fun l0 a0 h0 => lift_run hrun h0, h2, h3, h4, hinv, fun p s => ?_, fun p s g hg => ?_, h.cmds⟩
  · rw [hconn]; exact h.era p s
  · rw [hconn] at hg
    rw [hold p s g hg]
    exact h.past p s g hg

theorem Resim.nothing (h : Resim U w a ph) {w' : State S} (hv : w'.view = w.view) (hinv : ∀ p s, LineInv (w'.line p s))
    (hconn : ∀ p s, (w'.line p s).conn.conn = (w.line p s).conn.conn)
    (hold : ∀ p s g, g < (w.line p s).conn.conn →
      ((w'.line p s).conn.conns g).sent.drop ((w'.line p s).used g) = ((w.line p s).conn.conns g).sent.drop ((w.line p s).used g)) :
    Resim U w' a ph := by
  refine ⟨by rw [hv]; exact h.now, hinv, fun p s => ?_, fun p s g hg => ?_, h.cmds⟩
  · rw [hconn]; exact h.era p s
  · rw [hconn] at hg
    rw [hold p s g hg]
    exact h.past p s g hg

/-- One client changes. -/
theorem put_all {Q : Nat → S → Line → Prop} {p : Nat} {s : S} {l : Line} (hl : Q p s l) (hw : ∀ p' s', ¬ (p' = p ∧ s' = s) → Q p' s' (w.line p' s')) :
    ∀ p' s', Q p' s' ((w.put p s l).line p' s') := by
  intro p' s'
  rw [put_line]
  by_cases h : p' = p ∧ s' = s
  · rw [if_pos h, h.1, h.2]; exact hl
  · rw [if_neg h]; exact hw p' s' h

theorem ofOp_idle (a : Reconn.At) (h : a.ofOp.op = none) : a.ofOp = .idle := by
  cases a with
  | user a => cases a <;> first | rfl | cases h
  | _ => rfl

/-- A new connection is in use. -/
theorem Resim.turns (h : Resim U w a ph) {p : Nat} {s : S} {t g : Nat} (hp : (w.line p s).conn.pc t = .setConn g)
    {c' : Reconn.State Nat} (hc : c' = { (w.line p s).conn.ret t (.reconnect true) with conn := g }) (hinv : LineInv { w.line p s with conn := c' }) :
    ∃ l a' ph', (∀ l0 a0, MendedRun U.call U.method U.proc a0 l0 a → MendedRun U.call U.method U.proc a0 (l0 ++ l) a')
      ∧ seenOf l = [] ∧ carriedOut l = 0 ∧ Resim U (w.put p s { w.line p s with conn := c' }) a' ph' := by
  have hI := h.inv p s
  obtain ⟨hg, -⟩ := hI.gen.next t g (by rw [hp]; rfl)
  have hin : ((w.line p s).conn.pc t).inside = true := by rw [hp]; rfl
  have hclosed := hI.tidy.past t (by rw [hp]; rfl)
  have hdown : a.now.down p s := (h.now.down p s).2 (by
    show ((w.line p s).conn.cur.ended || !(w.line p s).conn.cur.isOpen) = true
    rw [show (w.line p s).conn.cur.isOpen = false from hclosed]; simp)
  have quiet : ∀ u, (((w.line p s).conn.pc u).ofOp).talking = none := by
    intro u
    cases hu : ((w.line p s).conn.pc u).ofOp.talking with
    | none => rfl
    | some x =>
      have := hI.excl.one hin (inside_ofOp (Sched.At.inside_of_talking (by rw [hu]; simp)))
      rw [this, hp] at hu
      cases hu
  have hph : ph p s = none := by
    cases hq : ph p s with
    | none => rfl
    | some f =>
      obtain ⟨u, c, o⟩ := f
      have := h.now.line p s
      rw [hq] at this
      obtain ⟨x, hx⟩ := Wired.ph_talker this
      have hx : ((w.line p s).conn.pc u).ofOp.talking = some (c, x) := hx
      rw [quiet u] at hx
      cases hx
  obtain ⟨hf, hu0, ho0⟩ := hI.fresh g (by omega)
  have hpc : ∀ u, (c'.pc u).ofOp.op = ((w.line p s).conn.pc u).ofOp.op := by
    intro u
    rw [hc]
    show (Reconn.At.ofOp (if u = t then .user .idle else (w.line p s).conn.pc u)).op = _
    by_cases e : u = t
    · rw [if_pos e, e, hp]; rfl
    · rw [if_neg e]
  have htalk : ∀ u, (c'.pc u).ofOp.talking = none := by
    intro u
    rw [hc]
    show (Reconn.At.ofOp (if u = t then .user .idle else (w.line p s).conn.pc u)).talking = _
    by_cases e : u = t
    · rw [if_pos e]; rfl
    · rw [if_neg e]; exact quiet u
  have hcur : c'.cur = (w.line p s).conn.conns g := by rw [hc]; rfl
  have hcn : c'.conn = g := by rw [hc]
  have hcs : c'.conns = (w.line p s).conn.conns := by rw [hc]; rfl
  have sim : ∀ (d : Nat → S → Prop), (∀ p' s', (¬ (p' = p ∧ s' = s) → (d p' s' ↔ a.now.down p' s')) ∧ (d p s ↔ (Line.view { w.line p s with conn := c' }).conn.ended = true)) →
      Sim2 U (w.put p s { w.line p s with conn := c' }).view
        { a.now with down := d, pending := fun p' s' => if p' = p ∧ s' = s then [] else a.now.pending p' s' }
        (fun p' s' => if p' = p ∧ s' = s then none else ph p' s') := by
    intro d hd
    refine h.now.change (p := p) (s := s) (ops := []) (x := none) (l := Line.view { w.line p s with conn := c' }) (by rw [put_view]) rfl
      (by rw [put_view]; exact h.now.world) (by rw [put_view]; exact h.now.prog) hd ?_ ?_ (fun i c hi => ?_) (fun _ _ _ _ _ _ => by rw [put_view]; rfl)
      (fun _ ho => by cases ho) (h.now.same_results fun i c r => by rw [hph])
    · exact ⟨view_excl hinv.excl, rfl, rfl, fun u => ofOp_idle _, by show (w.line p s).used c'.conn ≤ _; rw [hcn, hu0]; exact Nat.zero_le _⟩
    · refine .quiet htalk (by show c'.cur.werr = false; rw [hcur]; exact hf.werr) ?_ (by show c'.cur.inbox = []; rw [hcur]; exact hf.inbox) fun _ => ⟨rfl, ?_⟩
      · show c'.cur.sent.drop _ = []
        rw [hcur, hf.sent, List.drop_nil]
      · show c'.cur.got = (w.line p s).out c'.conn
        rw [hcur, hf.got, hcn, ho0]
    · rw [put_view]
      refine h.now.mine p s i c ?_
      have hi : (c'.pc i).ofOp.op = some c := hi
      rw [hpc] at hi
      exact hi
  have rest : ∀ (d : Nat → S → Prop), (∀ p' s', (¬ (p' = p ∧ s' = s) → (d p' s' ↔ a.now.down p' s')) ∧ (d p s ↔ (Line.view { w.line p s with conn := c' }).conn.ended = true)) →
      Resim U (w.put p s { w.line p s with conn := c' })
        { now := { a.now with down := d, pending := fun p' s' => if p' = p ∧ s' = s then [] else a.now.pending p' s' }
          era := fun p' s' => if p' = p ∧ s' = s then a.era p s + 1 else a.era p' s'
          past := fun p' s' g => if p' = p ∧ s' = s ∧ g = a.era p s then a.now.pending p s else a.past p' s' g }
        (fun p' s' => if p' = p ∧ s' = s then none else ph p' s') := by
    intro d hd
    refine ⟨sim d hd, put_all (Q := fun _ _ l => LineInv l) hinv (fun p' s' _ => h.inv p' s'), fun p' s' => ?_, fun p' s' g' hg' => ?_, fun p' s' g' op ho => ?_⟩
    · show (if p' = p ∧ s' = s then a.era p s + 1 else a.era p' s') = _
      rw [put_line]
      by_cases e : p' = p ∧ s' = s
      · rw [if_pos e, if_pos e, h.era p s]; show _ = c'.conn; rw [hcn, hg]
      · rw [if_neg e, if_neg e]; exact h.era p' s'
    · rw [put_line] at hg' ⊢
      show _ <+: ((if p' = p ∧ s' = s ∧ g' = a.era p s then a.now.pending p s else a.past p' s' g').map _).flatten
      by_cases e : p' = p ∧ s' = s
      · obtain ⟨rfl, rfl⟩ := e
        rw [if_pos ⟨rfl, rfl⟩] at hg' ⊢
        have hg' : g' < c'.conn := hg'
        show (c'.conns g').sent.drop ((w.line p' s').used g') <+: _
        rw [hcs]
        rw [hcn, hg] at hg'
        by_cases e : g' = a.era p' s'
        · rw [if_pos ⟨rfl, rfl, e⟩, e, h.era]
          have := h.now.line p' s'
          rw [hph] at this
          cases this with
          | quiet _ _ g3 => exact (show (w.line p' s').conn.cur.sent.drop _ = _ from g3) ▸ List.prefix_refl _
          | dead _ _ g3 => exact g3
        · rw [if_neg fun x => e x.2.2]
          rw [h.era] at e
          exact h.past p' s' g' (by omega)
      · rw [if_neg e] at hg' ⊢
        rw [if_neg fun x => e ⟨x.1, x.2.1⟩]
        exact h.past p' s' g' hg'
    · have ho : op ∈ (if p' = p ∧ s' = s ∧ g' = a.era p s then a.now.pending p s else a.past p' s' g') := ho
      by_cases e : p' = p ∧ s' = s ∧ g' = a.era p s
      · rw [if_pos e] at ho; rw [e.2.1]; exact h.now.pend p s op ho
      · rw [if_neg e] at ho; exact h.cmds p' s' g' op ho
  have hm := MendedStep.mends (call := U.call) (method := U.method) (proc := U.proc) a p s hdown
  have hended : (Line.view { w.line p s with conn := c' }).conn.ended = ((w.line p s).conn.conns g).ended := by
    show (c'.cur.ended || !c'.cur.isOpen) = _
    rw [hcur, hf.isOpen]; simp
  by_cases he : ((w.line p s).conn.conns g).ended = true
  · refine ⟨[.mends p s, .breaks p s], _, _, fun l0 a0 h0 => ?_, rfl, rfl, rest (fun p' s' => (a.now.down p' s' ∧ ¬ (p' = p ∧ s' = s)) ∨ p' = p ∧ s' = s) fun p' s' => ⟨fun e => ?_, ?_⟩⟩
    · rw [show l0 ++ [Deed.mends p s, .breaks p s] = l0 ++ [.mends p s] ++ [.breaks p s] by simp]
      exact .snoc (.snoc h0 hm) (.now _ _ _ (.breaks _ p s))
    · exact ⟨fun x => x.elim (fun x => x.1) fun x => absurd x e, fun x => .inl ⟨x, e⟩⟩
    · rw [hended]
      exact ⟨fun _ => he, fun _ => .inr ⟨rfl, rfl⟩⟩
  · refine ⟨[.mends p s], _, _, fun l0 a0 h0 => .snoc h0 hm, rfl, rfl, rest (fun p' s' => a.now.down p' s' ∧ ¬ (p' = p ∧ s' = s)) fun p' s' => ⟨fun e => ?_, ?_⟩⟩
    · exact ⟨fun x => x.1, fun x => ⟨x, e⟩⟩
    · rw [hended]
      exact ⟨fun x => absurd ⟨rfl, rfl⟩ x.2, fun x => absurd x he⟩

/-- Memcached carries out what was sent on an old connection. -/
theorem Resim.late (h : Resim U w a ph) {p : Nat} {s : S} {g : Nat} {x y reply rest : Bytes} {st : Store}
    (hg : g < (w.line p s).conn.conn) (hxy : ((w.line p s).conn.conns g).sent.drop ((w.line p s).used g) = x ++ y)
    (hst : Mc.step (w.world s) x = some (reply, st, rest)) :
    ∃ a', MendedStep U.call U.method U.proc a (.late p s) a' ∧
      Resim U { (w.put p s { w.line p s with
          used := fun h => if h = g then (w.line p s).used g + (x.length - rest.length) else (w.line p s).used h
          out := fun h => if h = g then (w.line p s).out g ++ reply else (w.line p s).out h }) with
        world := World.update w.world s st, calls := w.calls + 1 } a' ph := by
  have hxne : x ≠ [] := fun hx => by subst hx; exact absurd (step_lt hst) (by simp)
  have hpast := h.past p s g hg
  have hcmd := h.cmds p s g
  cases hq : a.past p s g with
  | nil =>
    rw [hq, hxy] at hpast
    exact absurd (List.append_eq_nil_iff.1 (List.prefix_nil.1 hpast)).1 hxne
  | cons op ops =>
    obtain ⟨wire, cmd, e1, e2⟩ := hcmd op (by rw [hq]; exact List.mem_cons_self)
    have e0 := Wired.wireOf_eq e1
    rw [hq, List.map_cons, e0, List.flatten_cons] at hpast
    obtain ⟨v, key⟩ := hpast
    have key0 := key
    rw [hxy, List.append_assoc] at key
    obtain ⟨k1, -, k3⟩ := Wired.step_first e2 hst key
    have hlen : x.length - rest.length = wire.length := by rw [k1, List.length_append]; omega
    rw [hlen]
    have hdrop : ((w.line p s).conn.conns g).sent.drop ((w.line p s).used g) = wire ++ (rest ++ y) := by rw [hxy, k1, List.append_assoc]
    refine ⟨_, .late a p s g op ops (World.update a.now.world s st) (by rw [h.era]; exact hg) hq ⟨wire, reply, st, e1, by rw [h.now.world]; exact k3, rfl⟩, ?_⟩
    have hne : (w.line p s).conn.conn ≠ g := by omega
    have hline : Line.view { w.line p s with
        used := fun h => if h = g then (w.line p s).used g + wire.length else (w.line p s).used h
        out := fun h => if h = g then (w.line p s).out g ++ reply else (w.line p s).out h } = (w.line p s).view := by
      show Wired.Line.mk _ (if (w.line p s).conn.conn = g then _ else _) (if (w.line p s).conn.conn = g then _ else _) = Wired.Line.mk _ _ _
      rw [if_neg hne, if_neg hne]
    have hl : ∀ p' s', (w.view.put p s (Line.view { w.line p s with
        used := fun h => if h = g then (w.line p s).used g + wire.length else (w.line p s).used h
        out := fun h => if h = g then (w.line p s).out g ++ reply else (w.line p s).out h })).line p' s' = w.view.line p' s' := by
      intro p' s'
      rw [hline, Wired.put_line]
      by_cases e : p' = p ∧ s' = s
      · rw [if_pos e, e.1, e.2]; rfl
      · rw [if_neg e]
    refine ⟨?_, fun p' s' => ?_, fun p' s' => ?_, fun p' s' g' hg' => ?_, fun p' s' g' o ho => ?_⟩
    · have hv := h.now
      have e : (State.view { (w.put p s { w.line p s with
          used := fun h => if h = g then (w.line p s).used g + wire.length else (w.line p s).used h
          out := fun h => if h = g then (w.line p s).out g ++ reply else (w.line p s).out h }) with
          world := World.update w.world s st, calls := w.calls + 1 } : Wired.State S)
          = ⟨w.view.line, World.update w.world s st, w.prog, w.calls + 1⟩ := by
        have := put_view w p s { w.line p s with
          used := fun h => if h = g then (w.line p s).used g + wire.length else (w.line p s).used h
          out := fun h => if h = g then (w.line p s).out g ++ reply else (w.line p s).out h }
        have h2 := congrArg Wired.State.line this
        show Wired.State.mk _ _ _ _ = Wired.State.mk _ _ _ _
        congr 1
        refine h2.trans ?_
        funext p' s'
        exact hl p' s'
      rw [e]
      exact ⟨by show World.update a.now.world s st = _; rw [hv.world]; rfl, hv.prog, hv.down, hv.sound, hv.line, hv.mine, hv.pend, hv.res⟩
    · refine put_all (w := w) (Q := fun _ _ l => LineInv l) ?_ (fun p' s' _ => h.inv p' s') p' s'
      have := h.inv p s
      refine ⟨this.excl, this.gen, this.tidy, fun g' hg' => ?_⟩
      have hg' : (w.line p s).conn.conn < g' := hg'
      have hne : g' ≠ g := by omega
      show _ ∧ (if g' = g then _ else _) = 0 ∧ (if g' = g then _ else _) = []
      rw [if_neg hne, if_neg hne]
      exact this.fresh g' hg'
    · exact put_all (w := w) (Q := fun p' s' l => a.era p' s' = l.conn.conn) (l := { w.line p s with
          used := fun h => if h = g then (w.line p s).used g + wire.length else (w.line p s).used h
          out := fun h => if h = g then (w.line p s).out g ++ reply else (w.line p s).out h }) (h.era p s) (fun p' s' _ => h.era p' s') p' s'
    · refine put_all (w := w) (p := p) (s := s) (Q := fun p' s' l => g' < l.conn.conn → (l.conn.conns g').sent.drop (l.used g') <+:
        ((if p' = p ∧ s' = s ∧ g' = g then ops else a.past p' s' g').map (wireOf U s')).flatten) (l := { w.line p s with
          used := fun h => if h = g then (w.line p s).used g + wire.length else (w.line p s).used h
          out := fun h => if h = g then (w.line p s).out g ++ reply else (w.line p s).out h }) (fun hg' => ?_) (fun p' s' he hg' => ?_) p' s' hg'
      · show ((w.line p s).conn.conns g').sent.drop (if g' = g then (w.line p s).used g + wire.length else (w.line p s).used g') <+: _
        by_cases e : g' = g
        · subst e
          rw [if_pos rfl, if_pos ⟨rfl, rfl, rfl⟩, Wired.drop_more hdrop]
          rw [hdrop, List.append_assoc] at key0
          exact ⟨v, List.append_cancel_left key0⟩
        · rw [if_neg e, if_neg fun x => e x.2.2]; exact h.past p s g' hg'
      · rw [if_neg fun x => he ⟨x.1, x.2.1⟩]; exact h.past p' s' g' hg'
    · have ho : o ∈ (if p' = p ∧ s' = s ∧ g' = g then ops else a.past p' s' g') := ho
      by_cases e : p' = p ∧ s' = s ∧ g' = g
      · rw [if_pos e] at ho; rw [e.2.1]; exact hcmd o (by rw [hq]; exact List.mem_cons_of_mem _ ho)
      · rw [if_neg e] at ho; exact h.cmds p' s' g' o ho

theorem view_called {c : Reconn.State Nat} (h : Excl c) {i : Nat} (hi : c.pc i = .user .idle) (x : Call Out) :
    view (c.goto i (.user (.called x))) = (view c).goto i (.called x) := by
  refine view_eq (Reconn.excl_goto h (t := i) (a := .user (.called x)) rfl rfl (by rw [hi]; rfl)) (Sched.excl_goto (view_excl h) ?_) rfl rfl rfl rfl rfl rfl rfl rfl rfl rfl (fun u => goto_view rfl u) rfl
  rw [show (view c).pc i = (c.pc i).ofOp from rfl, hi]; rfl

theorem resim_step (hU : Readers U) {w' : State S} {e : Option (Ev M)} (hs : Step U w e w') (h : Resim U w a ph) (ha : NextFine U.call a.now) :
    ∃ l a' ph', (∀ l0 a0, MendedRun U.call U.method U.proc a0 l0 a → MendedRun U.call U.method U.proc a0 (l0 ++ l) a')
      ∧ seenOf l = e.toList ∧ w'.calls = w.calls + carriedOut l ∧ Resim U w' a' ph' := by
  -- one client changes, without a new connection
  have putInv : ∀ {p : Nat} {s : S} {l : Line}, LineInv l → ∀ p' s', LineInv ((w.put p s l).line p' s') := fun {p s l} hl =>
    put_all (Q := fun _ _ l => LineInv l) hl fun p' s' _ => h.inv p' s'
  have putConn : ∀ {p : Nat} {s : S} {l : Line}, l.conn.conn = (w.line p s).conn.conn → ∀ p' s', ((w.put p s l).line p' s').conn.conn = (w.line p' s').conn.conn :=
    fun {p s l} hl => put_all (Q := fun p' s' l => l.conn.conn = (w.line p' s').conn.conn) hl fun _ _ _ => rfl
  have putOld : ∀ {p : Nat} {s : S} {c' : Reconn.State Nat}, (∀ g, g < (w.line p s).conn.conn → (c'.conns g).sent = ((w.line p s).conn.conns g).sent) →
      ∀ p' s' g, g < (w.line p' s').conn.conn → (((w.put p s { w.line p s with conn := c' }).line p' s').conn.conns g).sent.drop (((w.put p s { w.line p s with conn := c' }).line p' s').used g)
        = ((w.line p' s').conn.conns g).sent.drop ((w.line p' s').used g) := fun {p s c'} hl p' s' =>
    put_all (w := w) (p := p) (s := s) (l := { w.line p s with conn := c' }) (Q := fun p' s' l => ∀ g, g < (w.line p' s').conn.conn → (l.conn.conns g).sent.drop (l.used g) = ((w.line p' s').conn.conns g).sent.drop ((w.line p' s').used g))
      (fun g hg => by show (c'.conns g).sent.drop _ = _; rw [hl g hg]) (fun _ _ _ _ _ => rfl) p' s'
  cases hs with
  | tick d => exact h.step hU ha (w' := { w with world := World.tick w.world d }) (.tick w.view d) h.inv (fun _ _ => rfl) fun _ _ _ _ => rfl
  | start i m h1 => exact h.step hU ha (w' := w.set i (some (U.method m))) (.start w.view i m h1) h.inv (fun _ _ => rfl) fun _ _ _ _ => rfl
  | finish i r h1 => exact h.step hU ha (w' := w.set i none) (.finish w.view i r h1) h.inv (fun _ _ => rfl) fun _ _ _ _ => rfl
  | begin i s op k h1 h2 =>
    have hI := h.inv (U.proc i) s
    obtain ⟨l1, l2, -⟩ := line_step (U := U) (s := s) hI (.call _ i (U.call s op) h2 ⟨op, rfl⟩)
    have hst := Wired.Step.begin (U := U) w.view i s op k h1 (by show ((w.line (U.proc i) s).conn.pc i).ofOp = _; rw [h2]; rfl)
    refine h.step hU ha (e := none) ?_ (putInv l1) (putConn rfl) (putOld l2)
    rw [put_view, line_view w (U.proc i) s (c' := (w.line (U.proc i) s).conn.goto i (.user (.called (U.call s op)))) rfl, view_called hI.excl h2]
    exact hst
  | work p s c' h1 h2 =>
    obtain ⟨l1, l2, l3⟩ := line_step (h.inv p s) h1
    cases l3 with
    | step h3 h4 =>
      refine h.step hU ha (e := none) ?_ (putInv l1) (putConn h4) (putOld l2)
      rw [put_view, line_view _ _ _ h4]
      refine Wired.Step.work w.view p s (view c') h3 fun i => ?_
      show (c'.pc i).ofOp.op = ((w.line p s).conn.pc i).ofOp.op
      rw [ofOp_op, ofOp_op]; exact h2 i
    | still h3 h4 =>
      refine ⟨[], a, ph, fun l0 a0 h0 => by rw [List.append_nil]; exact h0, rfl, rfl, h.nothing ?_ (putInv l1) (putConn h4) (putOld l2)⟩
      rw [put_view, line_view _ _ _ h4, h3]
      show Wired.State.mk _ _ _ _ = Wired.State.mk _ _ _ _
      congr 1
      funext p' s'
      show (if p' = p ∧ s' = s then _ else _) = _
      by_cases e : p' = p ∧ s' = s
      · rw [if_pos e, e.1, e.2]; rfl
      · rw [if_neg e]; rfl
    | turns t g h3 h4 =>
      obtain ⟨l, a', ph', g1, g2, g3, g4⟩ := h.turns h3 h4 l1
      exact ⟨l, a', ph', g1, g2, by show w.calls = _; rw [g3]; rfl, g4⟩
  | ret i s op k c r c' h1 h2 h3 h4 h5 =>
    obtain ⟨l1, l2, l3⟩ := line_step (h.inv (U.proc i) s) h2
    cases l3 with
    | step h6 h7 =>
      have hst := Wired.Step.ret (U := U) w.view i s op k c r (view c') h1 h6 (by show ((w.line (U.proc i) s).conn.pc i).ofOp.op = _; rw [ofOp_op]; exact h3)
        (by show (c'.pc i).ofOp = _; rw [h4]; rfl) (by show opsOf c'.log = opsOf (w.line (U.proc i) s).conn.log ++ _; rw [h5, opsOf_op])
      refine h.step hU ha (e := none) (w' := (w.put (U.proc i) s { w.line (U.proc i) s with conn := c' }).set i (some (k r))) ?_ (putInv l1) (putConn h7) (putOld l2)
      show Wired.Step U w.view none ((State.view (w.put (U.proc i) s { w.line (U.proc i) s with conn := c' })).set i (some (k r)))
      rw [put_view, line_view _ _ _ h7]
      exact hst
    | still h6 h7 =>
      exfalso
      have := congrArg (fun x => x.log.length) h6
      simp [view, h5, opsOf_op] at this
    | turns t g h6 h7 =>
      exfalso
      rw [h7] at h5
      have h5 : (w.line (U.proc i) s).conn.log ++ [.reconnect true] = _ := h5
      have := List.append_cancel_left h5
      injection this with this
      cases this
  | serve p s g x y reply rest st h1 h2 =>
    have hxne : x ≠ [] := fun hx => by subst hx; exact absurd (step_lt h2) (by simp)
    have hI := h.inv p s
    rcases Nat.lt_trichotomy g (w.line p s).conn.conn with hg | hg | hg
    · obtain ⟨a', g1, g2⟩ := h.late hg h1 h2
      exact ⟨[.late p s], a', ph, fun l0 a0 h0 => .snoc h0 g1, rfl, rfl, g2⟩
    · subst hg
      have hst := Wired.Step.serve (U := U) w.view p s x y reply rest st h1 h2
      refine h.step hU ha (e := none) (w' := { (w.put p s { w.line p s with
          used := fun h => if h = (w.line p s).conn.conn then (w.line p s).used (w.line p s).conn.conn + (x.length - rest.length) else (w.line p s).used h
          out := fun h => if h = (w.line p s).conn.conn then (w.line p s).out (w.line p s).conn.conn ++ reply else (w.line p s).out h }) with
        world := World.update w.world s st, calls := w.calls + 1 }) ?_ (putInv ⟨hI.excl, hI.gen, hI.tidy, fun g hg => ?_⟩) (putConn rfl) fun p' s' => ?_
      · have e := put_view w p s { w.line p s with
          used := fun h => if h = (w.line p s).conn.conn then (w.line p s).used (w.line p s).conn.conn + (x.length - rest.length) else (w.line p s).used h
          out := fun h => if h = (w.line p s).conn.conn then (w.line p s).out (w.line p s).conn.conn ++ reply else (w.line p s).out h }
        have e2 : Line.view { w.line p s with
          used := fun h => if h = (w.line p s).conn.conn then (w.line p s).used (w.line p s).conn.conn + (x.length - rest.length) else (w.line p s).used h
          out := fun h => if h = (w.line p s).conn.conn then (w.line p s).out (w.line p s).conn.conn ++ reply else (w.line p s).out h }
            = { w.view.line p s with used := (w.view.line p s).used + (x.length - rest.length), out := (w.view.line p s).out ++ reply } := by
          show Wired.Line.mk _ (if (w.line p s).conn.conn = (w.line p s).conn.conn then _ else _) (if (w.line p s).conn.conn = (w.line p s).conn.conn then _ else _) = Wired.Line.mk _ _ _
          rw [if_pos rfl, if_pos rfl]; rfl
        rw [e2] at e
        have e3 := congrArg Wired.State.line e
        have : (State.view { (w.put p s { w.line p s with
          used := fun h => if h = (w.line p s).conn.conn then (w.line p s).used (w.line p s).conn.conn + (x.length - rest.length) else (w.line p s).used h
          out := fun h => if h = (w.line p s).conn.conn then (w.line p s).out (w.line p s).conn.conn ++ reply else (w.line p s).out h }) with
          world := World.update w.world s st, calls := w.calls + 1 } : Wired.State S)
          = { (w.view.put p s { w.view.line p s with used := (w.view.line p s).used + (x.length - rest.length), out := (w.view.line p s).out ++ reply }) with
              world := World.update w.view.world s st, calls := w.view.calls + 1 } := by
          show Wired.State.mk _ _ _ _ = Wired.State.mk _ _ _ _
          congr 1
        rw [this]
        exact hst
      · have hg : (w.line p s).conn.conn < g := hg
        show _ ∧ (if g = (w.line p s).conn.conn then _ else _) = 0 ∧ (if g = (w.line p s).conn.conn then _ else _) = []
        rw [if_neg (by omega), if_neg (by omega)]
        exact hI.fresh g hg
      · refine put_all (w := w) (p := p) (s := s) (Q := fun p' s' l => ∀ g, g < (w.line p' s').conn.conn → (l.conn.conns g).sent.drop (l.used g) = ((w.line p' s').conn.conns g).sent.drop ((w.line p' s').used g))
          (l := { w.line p s with
            used := fun h => if h = (w.line p s).conn.conn then (w.line p s).used (w.line p s).conn.conn + (x.length - rest.length) else (w.line p s).used h
            out := fun h => if h = (w.line p s).conn.conn then (w.line p s).out (w.line p s).conn.conn ++ reply else (w.line p s).out h }) (fun g hg => ?_) (fun _ _ _ _ _ => rfl) p' s'
        show List.drop (if g = (w.line p s).conn.conn then _ else _) _ = _
        rw [if_neg (by omega)]
    · exfalso
      rw [(hI.fresh g hg).1.sent, List.drop_nil] at h1
      exact hxne (List.append_eq_nil_iff.1 h1.symm).1

theorem step_calls {w w' : State S} {e : Option (Ev M)} (hs : Step U w e w') : w.calls ≤ w'.calls := by
  cases hs <;> first | exact Nat.le_refl _ | exact Nat.le_succ _

theorem resim_run (hU : Readers U) {w0 : State S} {tr : List (Ev M)} (hr : Run U w0 tr w)
    {a0 : Mended S} {ph0} (h0 : Resim U w0 a0 ph0)
    (hp : ∀ l a, MendedRun U.call U.method U.proc a0 l a → seenOf l <+: tr → w0.calls + carriedOut l ≤ w.calls → NextFine U.call a.now) :
    ∃ l a ph, MendedRun U.call U.method U.proc a0 l a ∧ seenOf l = tr ∧ w0.calls + carriedOut l = w.calls ∧ Resim U w a ph := by
  induction hr with
  | nil => exact ⟨[], a0, ph0, .nil, rfl, by simp [carriedOut], h0⟩
  | @snoc tr e w w' hr hs ih =>
    obtain ⟨l, a, ph, h1, h2, h3, h4⟩ := ih fun l a hl hv hc =>
      hp l a hl (hv.trans (List.prefix_append _ _)) (Nat.le_trans hc (step_calls hs))
    have ha := hp l a h1 (by rw [h2]; exact List.prefix_append _ _) (by rw [h3]; exact step_calls hs)
    obtain ⟨m, a', ph', g1, g2, g3, g4⟩ := resim_step hU hs h4 ha
    exact ⟨l ++ m, a', ph', g1 l a0 h1, by rw [Wired.seenOf_append, h2, g2], by rw [Wired.carriedOut_append, g3, ← h3]; omega, g4⟩

theorem resim_init (U : Setup S M) (w : World S) : Resim U (State.init w) (Mended.start w) fun _ _ => none := by
  refine ⟨?_, fun p s => ?_, fun _ _ => rfl, fun p s g hg => absurd hg (Nat.not_lt_zero _), fun _ _ _ _ h => by cases h⟩
  · exact Wired.sim2_init U w
  · refine ⟨fun u => ?_, ⟨rfl, fun t g h => ?_, fun _ => rfl⟩, ⟨fun _ => rfl, fun t g h => ?_, fun _ => rfl, fun g hg => absurd hg (Nat.not_lt_zero _), fun t h => ?_⟩, fun g _ => ⟨⟨rfl, rfl, rfl, rfl, rfl⟩, rfl, rfl⟩⟩
    · simp [State.init, Reconn.init, Reconn.At.inside, Sched.At.inside]
    · cases h
    · cases h
    · cases h

/-- The connection in use between process `p` and server `s` is broken: the other side has ended it, or Reconnect has closed
it and has not got a new one. -/
def Broken (w : State S) (p : Nat) (s : S) : Prop :=
  (w.line p s).conn.cur.ended = true ∨ (w.line p s).conn.cur.isOpen = false

/-- **C86**: whatever the goroutines of all processes see of their pool methods, when connections may break and be
replaced by Reconnect at any moment, is what they could see if every call on a connection were carried out at one moment or
failed, the caller of a call on a broken connection possibly getting an error for a result, and the call of one that failed
possibly being carried out later, also when its connection has been replaced. -/
theorem C86_refines (hU : Clients U) {w0 : World S} {tr : List (Ev M)} {x : State S} (hr : Run U (State.init w0) tr x)
    (hp : ∀ l a, MendedRun U.call U.method U.proc (Mended.start w0) l a → seenOf l <+: tr → carriedOut l ≤ x.calls → NextFine U.call a.now) :
    ∃ l a, MendedRun U.call U.method U.proc (Mended.start w0) l a ∧ seenOf l = tr ∧ carriedOut l = x.calls
      ∧ a.now.world = x.world ∧ a.now.prog = x.prog ∧ (∀ p s, a.now.down p s ↔ Broken x p s)
      ∧ ∀ p s, a.era p s = successes (x.line p s).conn.log := by
  obtain ⟨l, a, ph, h1, h2, h3, h4⟩ := resim_run hU.readers hr (resim_init U w0) fun l a hl hv hc =>
    hp l a hl hv (by rw [show (State.init w0).calls = 0 from rfl] at hc; omega)
  refine ⟨l, a, h1, h2, by rw [show (State.init w0).calls = 0 from rfl] at h3; omega, h4.now.world, h4.now.prog, fun p s => ?_, fun p s => ?_⟩
  · rw [h4.now.down p s]
    show ((x.line p s).conn.cur.ended || !(x.line p s).conn.cur.isOpen) = true ↔ _
    unfold Broken
    simp
  · rw [h4.era p s]; exact (h4.inv p s).gen.num
end

end Rewired
end Verif
