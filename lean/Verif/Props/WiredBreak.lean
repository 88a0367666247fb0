import Verif.Spec.WiredBreak
import Verif.Props.WiredRest
/-!
C85: connections that may break.
-/

namespace Verif
namespace Wired
open Kv Spec Mc Pool Cluster
open Sched (Excl)

variable {S M : Type} [DecidableEq S]

/-! ### One connection -/

/-- What goes on on a connection; `q`: the requests of calls that have failed and were not carried out. -/
inductive Ph (l : Line) (q : List Bytes) : Option (Nat × Call Out × Option (Res Out)) → Prop where
  | quiet : (∀ t, (l.conn.pc t).talking = none) → l.conn.werr = false → l.conn.sent.drop l.used = q.flatten → l.conn.inbox = [] →
      (l.conn.ended = false → q = [] ∧ l.conn.got = l.out) → Ph l q none
  | dead : l.conn.ended = true → l.conn.werr = true → l.conn.sent.drop l.used <+: q.flatten → (∀ t c, l.conn.pc t ≠ .reading c) → Ph l q none
  | asking (t : Nat) (c : Call Out) (x todo : Bytes) : (l.conn.pc t).talking = some (c, todo) → c.wire = .ok (x ++ todo) →
      l.conn.werr = false → l.conn.sent.drop l.used = q.flatten ++ x → l.conn.inbox = [] →
      (l.conn.ended = false → q = [] ∧ l.conn.got = l.out) → Ph l q (some (t, c, none))
  | told (t : Nat) (c : Call Out) (r : Res Out) (rest : Bytes) : (l.conn.pc t).talking = some (c, []) → l.conn.werr = false → q = [] →
      l.conn.sent.drop l.used = [] → (l.conn.ended = false → l.out = l.conn.got ++ rest) → c.rd (l.conn.inbox ++ rest) = (r, []) →
      r ≠ .err .io → Ph l q (some (t, c, some r))

/-- The client's side of the connection is in order. -/
structure Sound1 (l : Line) : Prop where
  excl : Excl l.conn
  raw : l.conn.raw = true
  isOpen : l.conn.isOpen = true
  idle : ∀ t, (l.conn.pc t).op = none → l.conn.pc t = .idle
  used : l.used ≤ l.conn.sent.length

/-- What a step on a connection can do. -/
inductive Went (l : Line) (q : List Bytes) (ph : Option (Nat × Call Out × Option (Res Out))) (c' : Sched.State Nat) : Prop where
  | stays : (∀ t, (c'.pc t).op = (l.conn.pc t).op) → c'.log = l.conn.log → c'.ended = l.conn.ended → Ph { l with conn := c' } q ph → Went l q ph c'
  | breaks : (∀ t, (c'.pc t).op = (l.conn.pc t).op) → c'.log = l.conn.log → c'.ended = true → Ph { l with conn := c' } q ph → Went l q ph c'
  | begins (t : Nat) (c : Call Out) : (∀ t, (c'.pc t).op = (l.conn.pc t).op) → c'.log = l.conn.log → c'.ended = l.conn.ended → ph = none →
      (l.conn.pc t).op = some c → Ph { l with conn := c' } q (some (t, c, none)) → Went l q ph c'
  | ends (t : Nat) (c : Call Out) (r : Res Out) : ph = some (t, c, some r) → (l.conn.pc t).op = some c → (∀ u, u ≠ t → c'.pc u = l.conn.pc u) →
      c'.pc t = .idle → c'.log = l.conn.log ++ [(c, r)] → c'.ended = l.conn.ended → Ph { l with conn := c' } q none → Went l q ph c'
  | loses (t : Nat) (c : Call Out) (r : Res Out) : ph = some (t, c, some r) → (l.conn.pc t).op = some c → (∀ u, u ≠ t → c'.pc u = l.conn.pc u) →
      c'.pc t = .idle → c'.log = l.conn.log ++ [(c, .err .io)] → l.conn.ended = true → c'.ended = true → Ph { l with conn := c' } q none → Went l q ph c'
  | fails (t : Nat) (c : Call Out) (w : Bytes) : ph = none ∨ ph = some (t, c, none) → c.wire = .ok w → (l.conn.pc t).op = some c →
      (∀ u, u ≠ t → c'.pc u = l.conn.pc u) → c'.pc t = .idle → c'.log = l.conn.log ++ [(c, .err .io)] → l.conn.ended = true → c'.ended = true →
      Ph { l with conn := c' } (q ++ [w]) none → Went l q ph c'
  | calls (t : Nat) : (l.conn.pc t).op = none → (c'.pc t).op ≠ none → c'.log = l.conn.log → Went l q ph c'

theorem ph_talker {l : Line} {q : List Bytes} {t : Nat} {c : Call Out} {o : Option (Res Out)} (h : Ph l q (some (t, c, o))) :
    ∃ x, (l.conn.pc t).talking = some (c, x) := by
  cases h with
  | asking _ _ x todo h1 => exact ⟨todo, h1⟩
  | told _ _ r rest h1 => exact ⟨[], h1⟩

theorem ph_frame {l : Line} {q : List Bytes} {c' : Sched.State Nat} (h : ∀ t, (c'.pc t).talking = (l.conn.pc t).talking)
    (h0 : l.conn.werr = true → ∀ t c, c'.pc t = .reading c → l.conn.pc t = .reading c) (h1 : c'.sent = l.conn.sent)
    (h2 : c'.inbox = l.conn.inbox) (h3 : c'.got = l.conn.got) (h4 : c'.werr = l.conn.werr) (h5 : c'.ended = l.conn.ended)
    {ph} (hp : Ph l q ph) : Ph { l with conn := c' } q ph := by
  cases hp with
  | quiet g1 g2 g3 g4 g5 =>
    exact .quiet (fun t => (h t).trans (g1 t)) (h4.trans g2) (by show c'.sent.drop _ = _; rw [h1]; exact g3) (h2.trans g4)
      (by show c'.ended = false → _ ∧ c'.got = _; rw [h5, h3]; exact g5)
  | dead g1 g2 g3 g4 =>
    exact .dead (h5.trans g1) (h4.trans g2) (by show c'.sent.drop _ <+: _; rw [h1]; exact g3) fun t c hc => g4 t c (h0 g2 t c hc)
  | asking t c x todo g1 g2 g3 g4 g5 g6 =>
    exact .asking t c x todo ((h t).trans g1) g2 (h4.trans g3) (by show c'.sent.drop _ = _; rw [h1]; exact g4) (h2.trans g5)
      (by show c'.ended = false → _ ∧ c'.got = _; rw [h5, h3]; exact g6)
  | told t c r rest g1 g2 g3 g4 g5 g6 g7 =>
    exact .told t c r rest ((h t).trans g1) (h4.trans g2) g3 (by show c'.sent.drop _ = _; rw [h1]; exact g4)
      (by show c'.ended = false → l.out = c'.got ++ _; rw [h5, h3]; exact g5) (by show c.rd (c'.inbox ++ _) = _; rw [h2]; exact g6) g7

/-- The connection goes down. -/
theorem ph_down {l : Line} {q : List Bytes} {ph} (hp : Ph l q ph) : Ph { l with conn := { l.conn with ended := true } } q ph := by
  cases hp with
  | quiet g1 g2 g3 g4 g5 => exact .quiet g1 g2 g3 g4 fun h => by cases h
  | dead g1 g2 g3 g4 => exact .dead rfl g2 g3 g4
  | asking t c x todo g1 g2 g3 g4 g5 g6 => exact .asking t c x todo g1 g2 g3 g4 g5 fun h => by cases h
  | told t c r rest g1 g2 g3 g4 g5 g6 g7 => exact .told t c r rest g1 g2 g3 g4 (fun h => by cases h) g6 g7

/-- A goroutine inside the mutex that is not talking: nobody is. -/
theorem ph_quiet {l : Line} {q : List Bytes} (hx : Excl l.conn) {t : Nat} (ht : (l.conn.pc t).inside = true) (hn : (l.conn.pc t).talking = none)
    {ph} (hp : Ph l q ph) : ph = none := by
  cases ph with
  | none => rfl
  | some a =>
    obtain ⟨u, c, o⟩ := a
    obtain ⟨x, h⟩ := ph_talker hp
    have h1 := (hx u).1 (Sched.At.inside_of_talking (by rw [h]; simp))
    have h2 := (hx t).1 ht
    rw [h1] at h2
    cases h2
    rw [h] at hn
    cases hn

/-- The goroutine that talks is the one of the phase, if the connection can be written to. -/
theorem ph_of {l : Line} {q : List Bytes} (hx : Excl l.conn) {t : Nat} {c : Call Out} {x : Bytes} (ht : (l.conn.pc t).talking = some (c, x))
    {ph} (hp : Ph l q ph) : (∃ o, ph = some (t, c, o)) ∨ ph = none ∧ l.conn.werr = true := by
  cases ph with
  | none => cases hp with
    | quiet h1 => rw [h1 t] at ht; cases ht
    | dead _ h2 => exact .inr ⟨rfl, h2⟩
  | some a =>
    obtain ⟨u, d, o⟩ := a
    obtain ⟨y, h⟩ := ph_talker hp
    have h1 := (hx u).1 (Sched.At.inside_of_talking (by rw [h]; simp))
    have h2 := (hx t).1 (Sched.At.inside_of_talking (by rw [ht]; simp))
    rw [h1] at h2
    cases h2
    rw [h] at ht
    cases ht
    exact .inl ⟨o, rfl⟩

theorem went_stays {l : Line} {q : List Bytes} {ph} (hp : Ph l q ph) {t : Nat} {a : Sched.At} (ho : a.op = (l.conn.pc t).op)
    (hn : a.talking = (l.conn.pc t).talking) (hr : l.conn.werr = true → ∀ c, a ≠ .reading c) : Went l q ph (l.conn.goto t a) := by
  refine .stays (fun u => goto_op _ _ _ _ ho) rfl rfl (ph_frame (fun u => goto_talking _ _ _ _ hn) (fun hw u c hu => ?_) rfl rfl rfl rfl rfl hp)
  rw [Sched.goto_pc] at hu
  by_cases hut : u = t
  · rw [if_pos hut] at hu; exact absurd hu (hr hw c)
  · rw [if_neg hut] at hu; exact hu

theorem went_begins {l : Line} {q : List Bytes} {ph} (hx : Excl l.conn) (hp : Ph l q ph) {t : Nat} {c : Call Out} {w : Bytes}
    (ht : (l.conn.pc t).inside = true) (hn : (l.conn.pc t).talking = none) (ho : (l.conn.pc t).op = some c) (hw : c.wire = .ok w) :
    Went l q ph (l.conn.goto t (.writing c w)) := by
  have := ph_quiet hx ht hn hp
  subst this
  cases hp with
  | quiet h1 h2 h3 h4 h5 =>
    refine .begins t c (fun u => goto_op _ _ _ _ ho.symm) rfl rfl rfl ho (.asking t c [] w ?_ hw h2 (by rw [List.append_nil]; exact h3) h4 h5)
    show ((l.conn.goto t (.writing c w)).pc t).talking = _
    rw [Sched.goto_pc, if_pos rfl]; rfl
  | dead h1 h2 h3 h4 =>
    refine .stays (fun u => goto_op _ _ _ _ ho.symm) rfl rfl (.dead h1 h2 h3 fun u d hu => ?_)
    have hu : (l.conn.goto t (.writing c w)).pc u = .reading d := hu
    rw [Sched.goto_pc] at hu
    by_cases hut : u = t
    · rw [if_pos hut] at hu; cases hu
    · rw [if_neg hut] at hu; exact h4 u d hu

theorem flatten_snoc (q : List Bytes) (w : Bytes) : (q ++ [w]).flatten = q.flatten ++ w := by simp

theorem sched_went {P : Sched.Params Nat} {l : Line} {c' : Sched.State Nat} (hs : Sched.Step P l.conn c')
    (hg : Sound1 l) (hf : Fair P l.conn l.out) {q : List Bytes} {ph} (hp : Ph l q ph) :
    Sound1 { l with conn := c' } ∧ Went l q ph c' := by
  have hx := Sched.excl_step hg.excl hs
  obtain ⟨conn, used, out⟩ := l
  have gI := hg.idle
  have gR := hg.raw
  have gO := hg.isOpen
  have gX := hg.excl
  have gU := hg.used
  dsimp only at *
  have quietAfter : ∀ {t : Nat}, (conn.pc t).inside = true → ∀ u, ((conn.goto t .idle).pc u).talking = none := fun {t} ht u => by
    rw [Sched.goto_pc]
    by_cases hu : u = t
    · rw [if_pos hu]; rfl
    · rw [if_neg hu]; exact gX.alone ht hu
  have noReader : ∀ {t : Nat}, (conn.pc t).inside = true → ∀ u d, (conn.goto t .idle).pc u ≠ .reading d := fun {t} ht u d e => by
    have := quietAfter ht u
    rw [e] at this
    cases this
  have others : ∀ {t : Nat} (u : Nat), u ≠ t → (conn.goto t .idle).pc u = conn.pc u := fun {t} u hu => by
    rw [Sched.goto_pc, if_neg hu]
  have itself : ∀ {t : Nat}, (conn.goto t .idle).pc t = .idle := fun {t} => by
    rw [Sched.goto_pc, if_pos rfl]
  cases hs with
  | call t c h1 h2 =>
    refine ⟨⟨hx, gR, gO, goto_idle gI _ _ (by simp [Sched.At.op]), gU⟩, .calls t (by show (conn.pc t).op = none; rw [h1]; rfl) ?_ rfl⟩
    rw [Sched.goto_pc, if_pos rfl]; simp [Sched.At.op]
  | lock t c h1 h2 =>
    refine ⟨⟨hx, gR, gO, goto_idle gI _ _ (by simp [Sched.At.op]), gU⟩, ?_⟩
    refine .stays (fun u => goto_op conn t u (.locked c) (by rw [h1]; rfl)) rfl rfl
      (ph_frame (c' := { conn.goto t (.locked c) with lock := some t })
        (fun u => goto_talking conn t u (.locked c) (by rw [h1]; rfl)) (fun _ u d hu => ?_) rfl rfl rfl rfl rfl hp)
    have hu : (conn.goto t (.locked c)).pc u = .reading d := hu
    rw [Sched.goto_pc] at hu
    by_cases hut : u = t
    · rw [if_pos hut] at hu; cases hu
    · rw [if_neg hut] at hu; exact hu
  | refuse t c h1 h2 h3 => rw [gR] at h3; cases h3
  | pass t c h1 h2 =>
    exact ⟨⟨hx, gR, gO, goto_idle gI _ _ (by simp [Sched.At.op]), gU⟩, went_stays hp (by show _ = (conn.pc t).op; rw [h1]; rfl) (by show _ = (conn.pc t).talking; rw [h1]; rfl) (by simp)⟩
  | writeDeadlineNil t c h1 h2 h3 => rw [gR] at h3; cases h3
  | writeDeadline t c h1 h2 h3 =>
    exact ⟨⟨hx, gR, gO, goto_idle gI _ _ (by simp [Sched.At.op]), gU⟩, went_stays hp (by show _ = (conn.pc t).op; rw [h1]; rfl) (by show _ = (conn.pc t).talking; rw [h1]; rfl) (by simp)⟩
  | readDeadlineNil t c h1 h2 => rw [gR] at h2; cases h2
  | readDeadline t c w h1 h2 h3 =>
    exact ⟨⟨hx, gR, gO, goto_idle gI _ _ (by simp [Sched.At.op]), gU⟩, went_begins gX hp (by show (conn.pc t).inside = true; rw [h1]; rfl) (by show (conn.pc t).talking = none; rw [h1]; rfl) (by show (conn.pc t).op = _; rw [h1]; rfl) h3⟩
  | noDeadline t c w h1 h2 h3 =>
    exact ⟨⟨hx, gR, gO, goto_idle gI _ _ (by simp [Sched.At.op]), gU⟩, went_begins gX hp (by show (conn.pc t).inside = true; rw [h1]; rfl) (by show (conn.pc t).talking = none; rw [h1]; rfl) (by show (conn.pc t).op = _; rw [h1]; rfl) h3⟩
  | unencodable t c e h1 h2 =>
    obtain ⟨⟨w, hw, -⟩, -⟩ := hf.wire t c (by rcases h1 with ⟨h1, -⟩ | ⟨h1, -⟩ <;> rw [h1] <;> rfl)
    rw [hw] at h2; cases h2
  | unencodablePanic t c h1 h2 =>
    obtain ⟨⟨w, hw, -⟩, -⟩ := hf.wire t c (by rcases h1 with ⟨h1, -⟩ | ⟨h1, -⟩ <;> rw [h1] <;> rfl)
    rw [hw] at h2; cases h2
  | write t c x y h1 h2 h3 =>
    refine ⟨⟨hx, gR, gO, goto_idle gI t (.writing c y) (by simp [Sched.At.op]), Nat.le_trans gU (by show conn.sent.length ≤ (conn.sent ++ x).length; simp)⟩, ?_⟩
    have htk : (conn.pc t).talking = some (c, x ++ y) := by rw [h1]; rfl
    have htalk : (({ conn.goto t (.writing c y) with sent := conn.sent ++ x } : Sched.State Nat).pc t).talking = some (c, y) := by
      show ((conn.goto t (.writing c y)).pc t).talking = _
      rw [Sched.goto_pc, if_pos rfl]; rfl
    refine .stays (fun u => goto_op conn t u (.writing c y) (by rw [h1]; rfl)) rfl rfl ?_
    rcases ph_of gX htk hp with ⟨o, rfl⟩ | ⟨-, hw⟩
    · cases hp with
      | asking _ _ z todo g1 g2 g3 g4 g5 g6 =>
        obtain rfl : todo = x ++ y := by
          have g1 : (conn.pc t).talking = some (c, todo) := g1
          rw [htk] at g1
          injection g1 with g1; injection g1 with _ g1; exact g1.symm
        dsimp only at g4 g6
        refine .asking t c (z ++ x) y htalk (by rw [g2]; simp) h3 ?_ g5 g6
        show (conn.sent ++ x).drop used = q.flatten ++ (z ++ x)
        rw [List.drop_append_of_le_length gU, g4, List.append_assoc]
      | told _ _ r rest g1 g2 g3 g4 g5 g6 g7 =>
        have e : ([] : Bytes) = x ++ y := by
          have g1 : (conn.pc t).talking = some (c, []) := g1
          rw [htk] at g1
          injection g1 with g1; injection g1 with _ g1; exact g1.symm
        obtain ⟨rfl, rfl⟩ := List.append_eq_nil_iff.1 e.symm
        exact .told t c r rest htalk g2 g3 (by show (conn.sent ++ []).drop used = _; rw [List.append_nil]; exact g4) g5 g6 g7
    · rw [h3] at hw; cases hw
  | writeFails t c x h1 h2 =>
    have hin : (conn.pc t).inside = true := by rw [h1]; rfl
    have htk : (conn.pc t).talking = some (c, x) := by rw [h1]; rfl
    have hop : (conn.pc t).op = some c := by rw [h1]; rfl
    have hend : conn.ended = true := by
      rcases h2 with h2 | h2 | h2 | ⟨-, h2⟩
      · rw [gO] at h2; cases h2
      · exact h2
      · cases hp with
        | quiet _ g => rw [show conn.werr = false from g] at h2; cases h2
        | dead g => exact g
        | asking _ _ _ _ _ _ g => rw [show conn.werr = false from g] at h2; cases h2
        | told _ _ _ _ _ g => rw [show conn.werr = false from g] at h2; cases h2
      · rw [hf.late] at h2; cases h2
    refine ⟨⟨hx, gR, gO, goto_idle gI t .idle (by simp), gU⟩, ?_⟩
    rcases ph_of gX htk hp with ⟨o, rfl⟩ | ⟨rfl, hw⟩
    · cases hp with
      | asking _ _ z todo g1 g2 g3 g4 g5 g6 =>
        refine .fails t c (z ++ todo) (.inr rfl) g2 hop others itself rfl hend hend (.dead hend rfl ?_ (noReader hin))
        show conn.sent.drop used <+: _
        rw [show conn.sent.drop used = _ from g4, flatten_snoc, ← List.append_assoc]
        exact List.prefix_append _ _
      | told _ _ r rest g1 g2 g3 g4 g5 g6 g7 =>
        refine .loses t c r rfl hop others itself rfl hend hend (.dead hend rfl ?_ (noReader hin))
        show conn.sent.drop used <+: _
        rw [show conn.sent.drop used = _ from g4]
        exact List.nil_prefix
    · obtain ⟨⟨w, hwire, -⟩, -⟩ := hf.wire t c hop
      cases hp with
      | quiet g1 => rw [show (conn.pc t).talking = none from g1 t] at htk; cases htk
      | dead g1 g2 g3 g4 =>
        refine .fails t c w (.inl rfl) hwire hop others itself rfl hend hend (.dead hend rfl ?_ (noReader hin))
        rw [flatten_snoc]
        exact g3.trans (List.prefix_append _ _)
  | written t c h1 h2 =>
    exact ⟨⟨hx, gR, gO, goto_idle gI _ _ (by simp [Sched.At.op]), gU⟩, went_stays hp (by show _ = (conn.pc t).op; rw [h1]; rfl) (by show _ = (conn.pc t).talking; rw [h1]; rfl) (fun h => by rw [show conn.werr = false from h2] at h; cases h)⟩
  | arrive x y h1 h2 h3 =>
    refine ⟨⟨hx, gR, gO, gI, gU⟩, ?_⟩
    rw [hf.resp] at h3
    refine .stays (fun _ => rfl) rfl rfl ?_
    have nothing : conn.got = out → x = [] := fun e => by
      rw [← e, List.append_assoc] at h3
      exact (List.append_eq_nil_iff.1 (List.append_cancel_left (by rw [List.append_nil]; exact h3 : conn.got ++ [] = conn.got ++ (x ++ y))).symm).1
    cases hp with
    | quiet g1 g2 g3 g4 g5 =>
      obtain ⟨g6, g7⟩ := g5 h2
      obtain rfl := nothing g7
      exact .quiet g1 g2 g3 (by show conn.inbox ++ [] = []; rw [List.append_nil]; exact g4) fun _ => ⟨g6, by show conn.got ++ [] = out; rw [List.append_nil]; exact g7⟩
    | dead g1 => rw [show conn.ended = true from g1] at h2; cases h2
    | asking t c z todo g1 g2 g3 g4 g5 g6 =>
      obtain ⟨g7, g8⟩ := g6 h2
      obtain rfl := nothing g8
      exact .asking t c z todo g1 g2 g3 g4 (by show conn.inbox ++ [] = []; rw [List.append_nil]; exact g5) fun _ => ⟨g7, by show conn.got ++ [] = out; rw [List.append_nil]; exact g8⟩
    | told t c r rest g1 g2 g3 g4 g5 g6 g7 =>
      have e : rest = x ++ y := by
        have := g5 h2
        dsimp only at this; rw [this, List.append_assoc] at h3
        exact List.append_cancel_left h3
      subst e
      refine .told t c r y g1 g2 g3 g4 (fun _ => h3) ?_ g7
      show c.rd (conn.inbox ++ x ++ y) = _
      rw [List.append_assoc]; exact g6
  | hangUp => exact ⟨⟨hx, gR, gO, gI, gU⟩, .breaks (fun _ => rfl) rfl rfl (ph_down hp)⟩
  | read t c h1 h2 =>
    have hin : (conn.pc t).inside = true := by rw [h1]; rfl
    have htk : (conn.pc t).talking = some (c, []) := by rw [h1]; rfl
    have hop : (conn.pc t).op = some c := by rw [h1]; rfl
    obtain ⟨-, hst, hnil⟩ := hf.wire t c hop
    refine ⟨⟨hx, gR, gO, goto_idle gI t .idle (by simp), gU⟩, ?_⟩
    rcases ph_of gX htk hp with ⟨o, rfl⟩ | ⟨rfl, hw⟩
    · cases hp with
      | asking _ _ z todo g1 g2 g3 g4 g5 g6 =>
        dsimp only at g5
        rw [g5, hnil] at h2
        exact absurd rfl h2
      | told _ _ r rest g1 g2 g3 g4 g5 g6 g7 =>
        dsimp only at g6
        rw [hst _ _ h2] at g6
        injection g6 with g8 g9
        obtain ⟨g10, rfl⟩ := List.append_eq_nil_iff.1 g9
        refine .ends t c r rfl hop others itself ?_ rfl (.quiet (quietAfter hin) g2 ?_ g10 fun he => ⟨g3, ?_⟩)
        · show conn.log ++ [(c, (c.rd conn.inbox).1)] = conn.log ++ [(c, r)]
          rw [g8]
        · show conn.sent.drop used = _
          rw [show conn.sent.drop used = _ from g4, g3]; rfl
        · have := g5 he
          dsimp only at this
          show conn.got = out
          rw [this, List.append_nil]
    · cases hp with
      | quiet g1 => rw [show (conn.pc t).talking = none from g1 t] at htk; cases htk
      | dead g1 g2 g3 g4 => exact absurd h1 (g4 t c)
  | readFails t c h1 h2 h3 =>
    have hin : (conn.pc t).inside = true := by rw [h1]; rfl
    have htk : (conn.pc t).talking = some (c, []) := by rw [h1]; rfl
    have hop : (conn.pc t).op = some c := by rw [h1]; rfl
    have hend : conn.ended = true := by
      rcases h3 with h3 | h3
      · rw [gO] at h3; cases h3
      · exact h3
    refine ⟨⟨hx, gR, gO, goto_idle gI t .idle (by simp), gU⟩, ?_⟩
    rcases ph_of gX htk hp with ⟨o, rfl⟩ | ⟨rfl, hw⟩
    · cases hp with
      | asking _ _ z todo g1 g2 g3 g4 g5 g6 =>
        obtain rfl : todo = [] := by
          have g1 : (conn.pc t).talking = some (c, todo) := g1
          rw [htk] at g1
          injection g1 with g1; injection g1 with _ g1; exact g1.symm
        refine .fails t c z (.inr rfl) (by rw [g2, List.append_nil]) hop others itself rfl hend hend (.quiet (quietAfter hin) g3 ?_ rfl fun he => ?_)
        · rw [flatten_snoc]; exact g4
        · rw [show conn.ended = false from he] at hend; cases hend
      | told _ _ r rest g1 g2 g3 g4 g5 g6 g7 =>
        refine .loses t c r rfl hop others itself rfl hend hend (.quiet (quietAfter hin) g2 ?_ rfl fun he => ?_)
        · show conn.sent.drop used = _
          rw [show conn.sent.drop used = _ from g4, g3]; rfl
        · rw [show conn.ended = false from he] at hend; cases hend
    · cases hp with
      | quiet g1 => rw [show (conn.pc t).talking = none from g1 t] at htk; cases htk
      | dead g1 g2 g3 g4 => exact absurd h1 (g4 t c)
  | readTimeout t c h1 h2 h3 h4 => rw [hf.late] at h4; cases h4
  | callClose t h1 h2 => exact absurd h2 (hf.closers t)
  | closeAgain t h1 _ _ => exact absurd (gI t (by rw [h1]; rfl)) (by rw [h1]; simp)
  | closeGo t h1 _ => exact absurd (gI t (by rw [h1]; rfl)) (by rw [h1]; simp)
  | closeRawNil t h1 _ => exact absurd (gI t (by rw [h1]; rfl)) (by rw [h1]; simp)
  | closeRaw t h1 _ => exact absurd (gI t (by rw [h1]; rfl)) (by rw [h1]; simp)
  | clearRaw t h1 => exact absurd (gI t (by rw [h1]; rfl)) (by rw [h1]; simp)
  | closeChanPanic t h1 _ => exact absurd (gI t (by rw [h1]; rfl)) (by rw [h1]; simp)
  | closeChan t h1 _ _ => exact absurd (gI t (by rw [h1]; rfl)) (by rw [h1]; simp)
  | clearChan t h1 => exact absurd (gI t (by rw [h1]; rfl)) (by rw [h1]; simp)

/-! ### All connections and goroutines -/

/-- The request of an operation. -/
def wireOf (U : Setup S M) (s : S) (op : Op) : Bytes :=
  match (U.call s op).wire with
  | .ok w => w
  | _ => []

theorem wireOf_eq {U : Setup S M} {s : S} {op : Op} {w : Bytes} (h : (U.call s op).wire = .ok w) : wireOf U s op = w := by
  unfold wireOf; rw [h]

/-- One command. -/
def IsCmd (c : Call Out) : Prop := ∃ x cmd, c.wire = .ok x ∧ readCmd x = (.ok cmd, [])

/-- The system with its connections and the one without them; `ph`: what goes on on the connections. -/
structure Sim2 (U : Setup S M) (w : State S) (a : Shaky S) (ph : Nat → S → Option (Nat × Call Out × Option (Res Out))) : Prop where
  world : a.world = w.world
  prog : a.prog = w.prog
  down : ∀ p s, a.down p s ↔ (w.line p s).conn.ended = true
  sound : ∀ p s, Sound1 (w.line p s)
  line : ∀ p s, Ph (w.line p s) ((a.pending p s).map (wireOf U s)) (ph p s)
  mine : ∀ p s i c, ((w.line p s).conn.pc i).op = some c →
    p = U.proc i ∧ (∃ op k, w.prog i = some (.call s op k) ∧ c = U.call s op) ∧ IsCmd c
  pend : ∀ p s op, op ∈ a.pending p s → IsCmd (U.call s op)
  res : ∀ i r, a.result i = some r ↔ ∃ s c, ph (U.proc i) s = some (i, c, some r)

section
variable {U : Setup S M} {w : State S} {a : Shaky S} {ph : Nat → S → Option (Nat × Call Out × Option (Res Out))}

theorem Sim2.fair (hU : Readers U) (h : Sim2 U w a ph) (p : Nat) (s : S) :
    Fair (U.params s (w.line p s).out) (w.line p s).conn (w.line p s).out where
  resp := fun _ => rfl
  closers := fun _ h => h
  late := rfl
  wire := fun t c hc => by
    obtain ⟨-, ⟨op, k, -, rfl⟩, x, cmd, h1, h2⟩ := h.mine p s t c hc
    exact ⟨⟨x, h1, cmd_ne_nil h2⟩, hU s op⟩

/-- Who is in a phase is in a call of that server. -/
theorem Sim2.whose (h : Sim2 U w a ph) {p : Nat} {s : S} {t : Nat} {c : Call Out} {o : Option (Res Out)} (hp : ph p s = some (t, c, o)) :
    p = U.proc t ∧ (∃ op k, w.prog t = some (.call s op k) ∧ c = U.call s op) ∧ IsCmd c := by
  have := h.line p s
  rw [hp] at this
  obtain ⟨x, hx⟩ := ph_talker this
  exact h.mine p s t c (op_of_talking hx)

theorem Sim2.server (h : Sim2 U w a ph) {p p' : Nat} {s s' : S} {t : Nat} {c : Call Out} {o : Option (Res Out)} (hp : ph p s = some (t, c, o))
    {op : Op} {k : Res Out → Prog S} (hi : w.prog t = some (.call s' op k)) : s = s' := by
  obtain ⟨-, ⟨op', k', h1, -⟩, -⟩ := h.whose hp
  rw [hi] at h1
  injection h1 with h1
  injection h1 with h1
  exact h1.symm

/-- One connection changes. -/
theorem Sim2.change (h : Sim2 U w a ph) {p : Nat} {s : S} {l : Line} {ops : List Op} {x : Option (Nat × Call Out × Option (Res Out))}
    {w' : State S} {a' : Shaky S} (hl : w'.line = (w.put p s l).line)
    (hpend : a'.pending = fun p' s' => if p' = p ∧ s' = s then ops else a.pending p' s')
    (hworld : a'.world = w'.world) (hprog : a'.prog = w'.prog)
    (hdown : ∀ p' s', (¬ (p' = p ∧ s' = s) → (a'.down p' s' ↔ a.down p' s')) ∧ (a'.down p s ↔ l.conn.ended = true))
    (hg : Sound1 l) (hline : Ph l (ops.map (wireOf U s)) x)
    (hm : ∀ i c, (l.conn.pc i).op = some c → p = U.proc i ∧ (∃ op k, w'.prog i = some (.call s op k) ∧ c = U.call s op) ∧ IsCmd c)
    (hm' : ∀ p' s' i c, ¬ (p' = p ∧ s' = s) → ((w.line p' s').conn.pc i).op = some c → w'.prog i = w.prog i)
    (hops : ∀ op ∈ ops, IsCmd (U.call s op))
    (hres : ∀ i r, a'.result i = some r ↔ ∃ s' c, (if U.proc i = p ∧ s' = s then x else ph (U.proc i) s') = some (i, c, some r)) :
    Sim2 U w' a' (fun p' s' => if p' = p ∧ s' = s then x else ph p' s') := by
  refine ⟨hworld, hprog, fun p' s' => ?_, fun p' s' => ?_, fun p' s' => ?_, fun p' s' i c hc => ?_, fun p' s' op ho => ?_, hres⟩
  · rw [hl, put_line]
    by_cases h' : p' = p ∧ s' = s
    · rw [if_pos h', h'.1, h'.2]; exact (hdown p s).2
    · rw [if_neg h']; exact ((hdown p' s').1 h').trans (h.down p' s')
  · rw [hl, put_line]
    by_cases h' : p' = p ∧ s' = s
    · rw [if_pos h']; exact hg
    · rw [if_neg h']; exact h.sound p' s'
  · rw [hl, put_line, hpend]
    by_cases h' : p' = p ∧ s' = s
    · simp only [if_pos h']; rw [h'.2]; exact hline
    · simp only [if_neg h']; exact h.line p' s'
  · rw [hl, put_line] at hc
    by_cases h' : p' = p ∧ s' = s
    · rw [if_pos h'] at hc; rw [h'.1, h'.2]; exact hm i c hc
    · rw [if_neg h'] at hc
      obtain ⟨h1, ⟨op, k, h2, h3⟩, h4⟩ := h.mine p' s' i c hc
      exact ⟨h1, ⟨op, k, (hm' p' s' i c h' hc).trans h2, h3⟩, h4⟩
  · rw [hpend] at ho
    by_cases h' : p' = p ∧ s' = s
    · simp only [if_pos h'] at ho; rw [h'.2]; exact hops op ho
    · simp only [if_neg h'] at ho; exact h.pend p' s' op ho

/-- No result more or less. -/
theorem Sim2.same_results (h : Sim2 U w a ph) {p : Nat} {s : S} {x : Option (Nat × Call Out × Option (Res Out))}
    (hx : ∀ i c r, x = some (i, c, some r) ↔ ph p s = some (i, c, some r)) :
    ∀ i r, a.result i = some r ↔ ∃ s' c, (if U.proc i = p ∧ s' = s then x else ph (U.proc i) s') = some (i, c, some r) := by
  intro i r
  rw [h.res i r]
  constructor
  · rintro ⟨s', c, hc⟩
    refine ⟨s', c, ?_⟩
    by_cases h' : U.proc i = p ∧ s' = s
    · rw [if_pos h']; rw [h'.1, h'.2] at hc; exact (hx i c r).2 hc
    · rw [if_neg h']; exact hc
  · rintro ⟨s', c, hc⟩
    refine ⟨s', c, ?_⟩
    by_cases h' : U.proc i = p ∧ s' = s
    · rw [if_pos h'] at hc; rw [h'.1, h'.2]; exact (hx i c r).1 hc
    · rw [if_neg h'] at hc; exact hc

/-- The call of goroutine `t` on server `s` ends: its result, if it has one, is gone. -/
theorem Sim2.no_result (h : Sim2 U w a ph) {t : Nat} {s : S} {op : Op} {k : Res Out → Prog S} (hi : w.prog t = some (.call s op k))
    (hph : ∀ i c r, ph (U.proc t) s = some (i, c, some r) → i = t) :
    ∀ i r, (if i = t then none else a.result i) = some r ↔
      ∃ s' c, (if U.proc i = U.proc t ∧ s' = s then none else ph (U.proc i) s') = some (i, c, some r) := by
  intro i r
  by_cases hit : i = t
  · subst hit
    rw [if_pos rfl]
    constructor
    · intro h; cases h
    · rintro ⟨s', c, hc⟩
      by_cases h' : s' = s
      · rw [if_pos ⟨rfl, h'⟩] at hc; cases hc
      · rw [if_neg fun e => h' e.2] at hc
        exact absurd (h.server (p' := 0) hc hi) h'
  · rw [if_neg hit, h.res i r]
    constructor
    · rintro ⟨s', c, hc⟩
      refine ⟨s', c, ?_⟩
      rw [if_neg]
      · exact hc
      · rintro ⟨e1, rfl⟩
        rw [e1] at hc
        exact hit (hph i c r hc)
    · rintro ⟨s', c, hc⟩
      refine ⟨s', c, ?_⟩
      by_cases h' : U.proc i = U.proc t ∧ s' = s
      · rw [if_pos h'] at hc; cases hc
      · rw [if_neg h'] at hc; exact hc

theorem same_ph {ph : Nat → S → Option (Nat × Call Out × Option (Res Out))} (p : Nat) (s : S) :
    (fun p' s' => if p' = p ∧ s' = s then ph p s else ph p' s') = ph := by
  funext p' s'
  by_cases h' : p' = p ∧ s' = s
  · rw [if_pos h', h'.1, h'.2]
  · rw [if_neg h']

theorem same_pending {f : Nat → S → List Op} (p : Nat) (s : S) :
    f = fun p' s' => if p' = p ∧ s' = s then f p s else f p' s' := by
  funext p' s'
  by_cases h' : p' = p ∧ s' = s
  · rw [if_pos h', h'.1, h'.2]
  · rw [if_neg h']

theorem Sim2.begin (h : Sim2 U w a ph) (ha : NextFine U.call a) {i : Nat} {s : S} {op : Op}
    {k : Res Out → Prog S} (hi : w.prog i = some (.call s op k)) (hp : (w.line (U.proc i) s).conn.pc i = .idle) :
    Sim2 U (w.put (U.proc i) s { w.line (U.proc i) s with conn := (w.line (U.proc i) s).conn.goto i (.called (U.call s op)) }) a ph := by
  have hg := h.sound (U.proc i) s
  have hnone : a.result i = none := by
    cases hr : a.result i with
    | none => rfl
    | some r =>
      obtain ⟨s', c, hc⟩ := (h.res i r).1 hr
      have := h.server (p' := 0) hc hi
      subst this
      have := h.line (U.proc i) s'
      rw [hc] at this
      obtain ⟨x, hx⟩ := ph_talker this
      rw [hp] at hx
      cases hx
  obtain ⟨x, cmd, h1, h2, -⟩ := ha i s op k (by rw [h.prog]; exact hi) hnone
  rw [← same_ph (ph := ph) (U.proc i) s]
  refine h.change (ops := a.pending (U.proc i) s) (a' := a) rfl (same_pending _ _) h.world h.prog
    (fun p' s' => ⟨fun _ => Iff.rfl, h.down _ _⟩) ⟨Sched.excl_goto hg.excl (by rw [hp]; rfl), hg.raw, hg.isOpen, goto_idle hg.idle _ _ (by simp [Sched.At.op]), hg.used⟩
    ?_ ?_ (fun _ _ _ _ _ _ => rfl) (h.pend _ _) (h.same_results fun _ _ _ => Iff.rfl)
  · refine ph_frame (fun u => goto_talking _ _ _ _ (by rw [hp]; rfl)) (fun _ u c hu => ?_) rfl rfl rfl rfl rfl (h.line _ s)
    rw [Sched.goto_pc] at hu
    by_cases hui : u = i
    · rw [if_pos hui] at hu; cases hu
    · rw [if_neg hui] at hu; exact hu
  · intro j c hc
    have hc : (((w.line (U.proc i) s).conn.goto i (.called (U.call s op))).pc j).op = some c := hc
    rw [Sched.goto_pc] at hc
    by_cases hj : j = i
    · subst hj
      rw [if_pos rfl] at hc
      cases hc
      exact ⟨rfl, ⟨op, k, hi, rfl⟩, x, cmd, h1, h2⟩
    · rw [if_neg hj] at hc
      exact h.mine _ s j c hc

theorem Sim2.work (hU : Readers U) (h : Sim2 U w a ph) {p : Nat} {s : S} {c' : Sched.State Nat}
    (hs : Sched.Step (U.params s (w.line p s).out) (w.line p s).conn c')
    (ho : ∀ i, (c'.pc i).op = ((w.line p s).conn.pc i).op) :
    (∃ ph', Sim2 U (w.put p s { w.line p s with conn := c' }) a ph')
    ∨ ∃ a' ph', ShakyStep U.call U.method U.proc a (.breaks p s) a' ∧ Sim2 U (w.put p s { w.line p s with conn := c' }) a' ph' := by
  obtain ⟨hg, hd⟩ := sched_went hs (h.sound p s) (h.fair hU p s) (h.line p s)
  have hm : ∀ i c, (c'.pc i).op = some c → p = U.proc i ∧ (∃ op k, w.prog i = some (.call s op k) ∧ c = U.call s op) ∧ IsCmd c := by
    intro i c hc
    rw [ho] at hc
    exact h.mine p s i c hc
  cases hd with
  | stays _ _ h3 h4 =>
    refine .inl ⟨_, h.change (ops := a.pending p s) (a' := a) rfl (same_pending _ _) h.world h.prog
      (fun p' s' => ⟨fun _ => Iff.rfl, ?_⟩) hg h4 hm (fun _ _ _ _ _ _ => rfl) (h.pend _ _) (h.same_results fun _ _ _ => Iff.rfl)⟩
    show _ ↔ c'.ended = true
    rw [h3]; exact h.down p s
  | breaks _ _ h3 h4 =>
    refine .inr ⟨_, _, .breaks a p s, h.change (ops := a.pending p s) rfl (same_pending _ _) h.world h.prog
      (fun p' s' => ⟨fun hn => ?_, ?_⟩) hg h4 hm (fun _ _ _ _ _ _ => rfl) (h.pend _ _) (h.same_results fun _ _ _ => Iff.rfl)⟩
    · exact ⟨fun hh => hh.resolve_right hn, .inl⟩
    · exact ⟨fun _ => h3, fun _ => .inr ⟨rfl, rfl⟩⟩
  | begins t c _ _ h3 h4 h5 h6 =>
    refine .inl ⟨_, h.change (ops := a.pending p s) (a' := a) rfl (same_pending _ _) h.world h.prog
      (fun p' s' => ⟨fun _ => Iff.rfl, ?_⟩) hg h6 hm (fun _ _ _ _ _ _ => rfl) (h.pend _ _) (h.same_results fun i c r => ?_)⟩
    · show _ ↔ c'.ended = true
      rw [h3]; exact h.down p s
    · rw [h4]; simp
  | ends t c r h1 h2 h3 h4 =>
    have := ho t
    rw [h4, h2] at this
    cases this
  | loses t c r h1 h2 h3 h4 =>
    have := ho t
    rw [h4, h2] at this
    cases this
  | fails t c r h1 h0 h2 h3 h4 =>
    have := ho t
    rw [h4, h2] at this
    cases this
  | calls t h1 h2 _ =>
    rw [ho t] at h2
    exact absurd h1 h2

theorem Sim2.ret (hU : Readers U) (h : Sim2 U w a ph) {i : Nat} {s : S} {op : Op} {k : Res Out → Prog S}
    {c : Call Out} {r : Res Out} {c' : Sched.State Nat} (hi : w.prog i = some (.call s op k))
    (hs : Sched.Step (U.params s (w.line (U.proc i) s).out) (w.line (U.proc i) s).conn c')
    (hc : ((w.line (U.proc i) s).conn.pc i).op = some c) (hc' : c'.pc i = .idle)
    (hlog : c'.log = (w.line (U.proc i) s).conn.log ++ [(c, r)]) :
    ∃ x a' ph', (x = .learn i ∨ x = .lose i ∨ x = .fail i) ∧ ShakyStep U.call U.method U.proc a x a'
      ∧ Sim2 U ((w.put (U.proc i) s { w.line (U.proc i) s with conn := c' }).set i (some (k r))) a' ph' := by
  obtain ⟨hg, hd⟩ := sched_went hs (h.sound _ s) (h.fair hU _ s) (h.line _ s)
  -- whoever it is that ends is `i`
  have who : ∀ {t : Nat} {d : Call Out} {r' : Res Out}, ((w.line (U.proc i) s).conn.pc t).op = some d →
      (∀ u, u ≠ t → c'.pc u = (w.line (U.proc i) s).conn.pc u) → c'.log = (w.line (U.proc i) s).conn.log ++ [(d, r')] →
      t = i ∧ d = U.call s op ∧ r' = r := by
    intro t d r' h2 h3 h5
    have e := List.append_cancel_left (h5.symm.trans hlog)
    injection e with e
    injection e with e1 e2
    subst e1 e2
    have hti : t = i := Classical.byContradiction fun hne => by
      have := h3 i (fun e => hne e.symm)
      rw [hc'] at this
      rw [← this] at hc
      cases hc
    subst hti
    obtain ⟨-, ⟨op', k', e3, e4⟩, -⟩ := h.mine _ s t d h2
    rw [hi] at e3
    injection e3 with e3
    injection e3 with _ e5 _
    subst e5
    exact ⟨rfl, e4, rfl⟩
  have hm : ∀ {x : Option (Prog S)}, (∀ u, u ≠ i → c'.pc u = (w.line (U.proc i) s).conn.pc u) → ∀ j d, (c'.pc j).op = some d → U.proc i = U.proc j ∧
      (∃ op k, (w.set i x).prog j = some (.call s op k) ∧ d = U.call s op) ∧ IsCmd d := by
    intro x h3 j d hjd
    by_cases hj : j = i
    · subst hj; rw [hc'] at hjd; cases hjd
    · rw [h3 j hj] at hjd
      obtain ⟨m1, ⟨op1, k1, m2, m3⟩, m4⟩ := h.mine _ s j d hjd
      exact ⟨m1, ⟨op1, k1, by show (if j = i then _ else w.prog j) = _; rw [if_neg hj]; exact m2, m3⟩, m4⟩
  have hm' : ∀ {x : Option (Prog S)}, ∀ p' s' j d, ¬ (p' = U.proc i ∧ s' = s) → ((w.line p' s').conn.pc j).op = some d → (w.set i x).prog j = w.prog j := by
    intro x p' s' j d hn hjd
    show (if j = i then _ else w.prog j) = _
    rw [if_neg]
    rintro rfl
    obtain ⟨m1, ⟨op1, k1, m2, -⟩, -⟩ := h.mine p' s' j d hjd
    rw [hi] at m2
    injection m2 with m2
    injection m2 with m2
    exact hn ⟨m1, m2.symm⟩
  have hprog : ∀ r, (fun j => if j = i then some (k r) else a.prog j) = (w.set i (some (k r))).prog := fun r => by
    rw [h.prog]; rfl
  cases hd with
  | stays h1 h2 _ => exact absurd (hc'.symm ▸ h1 i) (by rw [hc]; simp [Sched.At.op])
  | breaks h1 h2 _ => exact absurd (hc'.symm ▸ h1 i) (by rw [hc]; simp [Sched.At.op])
  | begins t d h1 _ _ _ _ => exact absurd (hc'.symm ▸ h1 i) (by rw [hc]; simp [Sched.At.op])
  | calls t h1 h2 h3 => exact absurd (congrArg List.length (h3.symm.trans hlog)) (by simp)
  | ends t d r' h1 h2 h3 h4 h5 h6 h7 =>
    obtain ⟨rfl, rfl, rfl⟩ := who h2 h3 h5
    refine ⟨_, _, _, .inl rfl, .learn a t s op k r' (by rw [h.prog]; exact hi) ((h.res t r').2 ⟨s, _, h1⟩),
      h.change (ops := a.pending (U.proc t) s) rfl (same_pending _ _) h.world (hprog r') (fun p' s' => ⟨fun _ => Iff.rfl, ?_⟩) hg h7 (hm h3) hm' (h.pend _ _)
        (h.no_result hi fun i c r hh => ?_)⟩
    · show _ ↔ c'.ended = true
      rw [h6]; exact h.down _ s
    · rw [h1] at hh; cases hh; rfl
  | loses t d r' h1 h2 h3 h4 h5 h6 h7 h8 =>
    obtain ⟨rfl, rfl, rfl⟩ := who h2 h3 h5
    refine ⟨_, _, _, .inr (.inl rfl), .lose a t s op k r' (by rw [h.prog]; exact hi) ((h.res t r').2 ⟨s, _, h1⟩) ((h.down _ s).2 h6),
      h.change (ops := a.pending (U.proc t) s) rfl (same_pending _ _) h.world (hprog _) (fun p' s' => ⟨fun _ => Iff.rfl, ?_⟩) hg h8 (hm h3) hm' (h.pend _ _)
        (h.no_result hi fun i c r hh => ?_)⟩
    · show _ ↔ c'.ended = true
      rw [h7, h.down _ s, h6]
    · rw [h1] at hh; cases hh; rfl
  | fails t d wire h1 h0 h2 h3 h4 h5 h6 h7 h8 =>
    obtain ⟨rfl, rfl, rfl⟩ := who h2 h3 h5
    have hnone : a.result t = none := by
      cases hr : a.result t with
      | none => rfl
      | some r =>
        obtain ⟨s', c, hq⟩ := (h.res t r).1 hr
        have := h.server (p' := 0) hq hi
        subst this
        rcases h1 with h1 | h1 <;> rw [h1] at hq <;> cases hq
    refine ⟨_, _, _, .inr (.inr rfl), .fail a t s op k (by rw [h.prog]; exact hi) hnone ((h.down _ s).2 h6),
      h.change (ops := a.pending (U.proc t) s ++ [op]) (x := none) rfl ?_ h.world (hprog _) (fun p' s' => ⟨fun _ => Iff.rfl, ?_⟩) hg ?_ (hm h3) hm' ?_
        (h.same_results fun i c r => ?_)⟩
    · funext p' s'
      by_cases h' : p' = U.proc t ∧ s' = s
      · simp only [if_pos h']; rw [h'.1, h'.2]
      · simp only [if_neg h']
    · show _ ↔ c'.ended = true
      rw [h7, h.down _ s, h6]
    · rw [List.map_append, List.map_cons, List.map_nil, wireOf_eq h0]; exact h8
    · intro o ho
      rcases List.mem_append.1 ho with ho | ho
      · exact h.pend _ _ o ho
      · rw [List.mem_singleton.1 ho]; exact (h.mine _ s t _ h2).2.2
    · rcases h1 with h1 | h1 <;> rw [h1] <;> simp

/-- memcached carries out exactly the first command. -/
theorem step_first {st st' : Store} {x y w v reply rest : Bytes} {cmd : Option Cmd} (hw : readCmd w = (.ok cmd, []))
    (hs : Mc.step st x = some (reply, st', rest)) (he : x ++ y = w ++ v) :
    x = w ++ rest ∧ v = rest ++ y ∧ answer st w = some (reply, st') := by
  have hall : ∃ reply' st', Mc.step st w = some (reply', st', []) := by
    unfold Mc.step
    rw [hw]
    cases cmd <;> exact ⟨_, _, rfl⟩
  obtain ⟨reply', st'', hall⟩ := hall
  have h1 := step_append hs y
  have h2 := step_append hall v
  rw [he, h2] at h1
  injection h1 with h1
  injection h1 with q1 h1
  injection h1 with q2 q3
  subst q1 q2
  rw [List.nil_append] at q3
  subst q3
  rw [← List.append_assoc] at he
  refine ⟨List.append_cancel_right he, rfl, ?_⟩
  unfold answer
  obtain ⟨b, bs, rfl⟩ : ∃ b bs, w = b :: bs := by
    cases w with
    | nil => exact absurd rfl (cmd_ne_nil hw)
    | cons b bs => exact ⟨b, bs, rfl⟩
  simp only [List.length_cons, answerLoop, hall]
  cases bs.length <;> simp [answerLoop]

theorem drop_more {α : Type} {l w v : List α} {n : Nat} (h : l.drop n = w ++ v) : l.drop (n + w.length) = v := by
  rw [← List.drop_drop, h, List.drop_left]

theorem used_more {α : Type} {l w v : List α} {n : Nat} (h : l.drop n = w ++ v) (hn : n ≤ l.length) : n + w.length ≤ l.length := by
  have := congrArg List.length h
  rw [List.length_drop, List.length_append] at this
  omega

theorem Sim2.serve (h : Sim2 U w a ph) (ha : NextFine U.call a) {p : Nat} {s : S}
    {x y reply rest : Bytes} {st : Store} (hxy : (w.line p s).conn.sent.drop (w.line p s).used = x ++ y)
    (hst : Mc.step (w.world s) x = some (reply, st, rest)) :
    ∃ d a' ph', ((∃ i, d = .run i) ∨ d = .late p s) ∧ ShakyStep U.call U.method U.proc a d a' ∧
      Sim2 U { (w.put p s { w.line p s with used := (w.line p s).used + (x.length - rest.length)
                                            out := (w.line p s).out ++ reply }) with
        world := World.update w.world s st, calls := w.calls + 1 } a' ph' := by
  have hxne : x ≠ [] := fun hx => by subst hx; exact absurd (step_lt hst) (by simp)
  have hg := h.sound p s
  have hl := h.line p s
  have hpnd := h.pend p s
  cases hq : a.pending p s with
  | cons op ops =>
    obtain ⟨wire, cmd, e1, e2⟩ := hpnd op (by rw [hq]; exact List.mem_cons_self)
    have e0 := wireOf_eq e1
    rw [hq] at hl
    -- what memcached has got begins with that request
    have pre : ∃ v z, (w.line p s).conn.sent.drop (w.line p s).used ++ v = wire ++ z := by
      generalize ph p s = f at hl
      cases hl with
      | quiet _ _ g => exact ⟨[], _, by rw [List.append_nil, g, List.map_cons, e0, List.flatten_cons]⟩
      | dead _ _ g => obtain ⟨v, g⟩ := g; exact ⟨v, _, by rw [g, List.map_cons, e0, List.flatten_cons]⟩
      | asking _ _ z _ _ _ _ g => exact ⟨[], _, by rw [List.append_nil, g, List.map_cons, e0, List.flatten_cons, List.append_assoc]⟩
      | told _ _ _ _ _ _ g => simp at g
    obtain ⟨v, z, key⟩ := pre
    rw [hxy, List.append_assoc] at key
    obtain ⟨k1, -, k3⟩ := step_first e2 hst key
    have hlen : x.length - rest.length = wire.length := by rw [k1, List.length_append]; omega
    rw [hlen]
    have hdrop : (w.line p s).conn.sent.drop (w.line p s).used = wire ++ (rest ++ y) := by rw [hxy, k1, List.append_assoc]
    refine ⟨_, _, fun p' s' => if p' = p ∧ s' = s then ph p s else ph p' s', .inr rfl, .late a p s op ops (World.update a.world s st) hq ⟨wire, reply, st, e1, by rw [h.world]; exact k3, rfl⟩, ?_⟩
    refine h.change (p := p) (s := s) (ops := ops) (x := ph p s)
      (l := { w.line p s with used := (w.line p s).used + wire.length, out := (w.line p s).out ++ reply }) rfl rfl
      (by show World.update a.world s st = _; rw [h.world]) h.prog (fun p' s' => ⟨fun _ => Iff.rfl, h.down p s⟩)
      ⟨hg.excl, hg.raw, hg.isOpen, hg.idle, used_more hdrop hg.used⟩ ?_ (h.mine p s) (fun _ _ _ _ _ _ => rfl)
      (fun o ho => hpnd o (by rw [hq]; exact List.mem_cons_of_mem _ ho)) (h.same_results fun _ _ _ => Iff.rfl)
    generalize ph p s = f at hl
    cases hl with
    | quiet g1 g2 g3 g4 g5 =>
      refine .quiet g1 g2 ?_ g4 fun he => absurd (g5 he).1 (by simp)
      show (w.line p s).conn.sent.drop ((w.line p s).used + wire.length) = _
      refine drop_more (g3.trans ?_)
      rw [List.map_cons, e0, List.flatten_cons]
    | dead g1 g2 g3 g4 =>
      refine .dead g1 g2 ?_ g4
      show (w.line p s).conn.sent.drop ((w.line p s).used + wire.length) <+: _
      rw [drop_more hdrop]
      rw [hdrop, List.map_cons, e0, List.flatten_cons] at g3
      exact (List.prefix_append_right_inj _).1 g3
    | asking t c z todo g1 g2 g3 g4 g5 g6 =>
      refine .asking t c z todo g1 g2 g3 ?_ g5 fun he => absurd (g6 he).1 (by simp)
      show (w.line p s).conn.sent.drop ((w.line p s).used + wire.length) = _
      refine drop_more (g4.trans ?_)
      rw [List.map_cons, e0, List.flatten_cons, List.append_assoc]
    | told t c r rest' g1 g2 g3 => simp at g3
  | nil =>
    rw [hq, List.map_nil] at hl
    cases hph : ph p s with
    | none =>
      exfalso
      rw [hph] at hl
      cases hl with
      | quiet _ _ g => rw [hxy] at g; exact hxne (List.append_eq_nil_iff.1 g).1
      | dead _ _ g => rw [hxy] at g; exact hxne (List.append_eq_nil_iff.1 (List.prefix_nil.1 g)).1
    | some f =>
      rw [hph] at hl
      cases hl with
      | told t c r rest' _ _ _ g => rw [hxy] at g; exact absurd (List.append_eq_nil_iff.1 g).1 hxne
      | asking t c z todo g1 g2 g3 g4 g5 g6 =>
        have hw := h.whose hph
        obtain ⟨rfl, ⟨op, k, hi, rfl⟩, -⟩ := hw
        have hnone : a.result t = none := by
          cases hr : a.result t with
          | none => rfl
          | some r =>
            obtain ⟨s', c, hc⟩ := (h.res t r).1 hr
            have := h.server (p' := 0) hc hi
            subst this
            rw [hph] at hc
            cases hc
        have hat : a.prog t = some (.call s op k) := by rw [h.prog]; exact hi
        obtain ⟨wire, cmd, e1, e2, e3⟩ := ha t s op k hat hnone
        rw [e1] at g2
        injection g2 with g2
        simp only [List.flatten_nil, List.nil_append] at g4
        obtain ⟨k1, k2, k3⟩ := step_first (y := y ++ todo) (v := []) e2 hst (by rw [List.append_nil, g2, ← List.append_assoc, ← hxy, g4])
        obtain ⟨rfl, k4⟩ := List.append_eq_nil_iff.1 k2.symm
        obtain ⟨rfl, rfl⟩ := List.append_eq_nil_iff.1 k4
        simp only [List.append_nil] at g2 k1 hxy
        subst k1 g2
        rw [h.world] at e3
        have hex : ∃ r, exchange (U.call s op) (w.world s) = some (r, st) ∧ (U.call s op).rd reply = (r, []) ∧ r ≠ .err .io := by
          unfold exchange at e3 ⊢
          rw [e1] at e3 ⊢
          simp only [k3] at e3 ⊢
          cases hrd : (U.call s op).rd reply with
          | mk r left =>
            rw [hrd] at e3
            cases left with
            | cons b bs => exact absurd rfl e3
            | nil =>
              by_cases hr : r = .err .io
              · simp [hr] at e3
              · exact ⟨r, by simp [hr], rfl, hr⟩
        obtain ⟨r, x1, x2, x3⟩ := hex
        have hcall : callOn U.call s op some a.world = (r, World.update a.world s st) :=
          callOn_exchange (by rw [h.world]; exact x1)
        have hdrop : (w.line (U.proc t) s).conn.sent.drop (w.line (U.proc t) s).used = x ++ [] := by rw [List.append_nil]; exact hxy
        have hrun := ShakyStep.run (call := U.call) (method := U.method) (proc := U.proc) a t s op k hat hnone
        rw [hcall] at hrun
        refine ⟨_, _, fun p' s' => if p' = U.proc t ∧ s' = s then some (t, U.call s op, some r) else ph p' s', .inl ⟨t, rfl⟩, hrun, ?_⟩
        have := h.change (p := U.proc t) (s := s) (ops := []) (x := some (t, U.call s op, some r))
          (l := { w.line (U.proc t) s with used := (w.line (U.proc t) s).used + (x.length - [].length (α := UInt8)), out := (w.line (U.proc t) s).out ++ reply })
          (w' := { (w.put (U.proc t) s { w.line (U.proc t) s with used := (w.line (U.proc t) s).used + (x.length - [].length (α := UInt8)), out := (w.line (U.proc t) s).out ++ reply }) with
            world := World.update w.world s st, calls := w.calls + 1 })
          (a' := { a with world := World.update a.world s st, result := fun j => if j = t then some r else a.result j }) rfl ?_
          (by show World.update a.world s st = _; rw [h.world]) h.prog (fun p' s' => ⟨fun _ => Iff.rfl, h.down _ s⟩)
          ⟨hg.excl, hg.raw, hg.isOpen, hg.idle, used_more hdrop hg.used⟩ ?_ (h.mine _ s) (fun _ _ _ _ _ _ => rfl)
          (fun o ho => by cases ho) ?_
        · exact this
        · rw [← hq]; exact same_pending _ _
        · refine .told t _ r reply ?_ g3 rfl ?_ ?_ ?_ x3
          · exact g1
          · exact drop_more hdrop
          · intro he
            show (w.line (U.proc t) s).out ++ reply = (w.line (U.proc t) s).conn.got ++ reply
            rw [(g6 he).2]
          · show (U.call s op).rd ((w.line (U.proc t) s).conn.inbox ++ reply) = _
            rw [g5]; exact x2
        · intro i r'
          show (if i = t then some r else a.result i) = some r' ↔ _
          by_cases hit : i = t
          · subst hit
            rw [if_pos rfl]
            constructor
            · intro hr; injection hr with hr; subst hr
              exact ⟨s, U.call s op, by rw [if_pos ⟨rfl, rfl⟩]⟩
            · rintro ⟨s', c, hc⟩
              by_cases h' : s' = s
              · rw [if_pos ⟨rfl, h'⟩] at hc
                injection hc with hc; injection hc with _ hc; injection hc with _ hc
              · rw [if_neg fun e => h' e.2] at hc
                exact absurd (h.server (p' := 0) hc hi) h'
          · rw [if_neg hit, h.res i r']
            constructor
            · rintro ⟨s', c, hc⟩
              refine ⟨s', c, ?_⟩
              rw [if_neg]
              · exact hc
              · rintro ⟨e4, rfl⟩
                rw [e4, hph] at hc
                cases hc
            · rintro ⟨s', c, hc⟩
              refine ⟨s', c, ?_⟩
              by_cases h' : U.proc i = U.proc t ∧ s' = s
              · rw [if_pos h'] at hc
                injection hc with hc; injection hc with hc _
                exact absurd hc.symm hit
              · rw [if_neg h'] at hc; exact hc

/-- Goroutine `i`, in no call, does something else. -/
theorem Sim2.set (h : Sim2 U w a ph) {i : Nat} {x : Option (Prog S)} (hi : ∀ s op k, w.prog i ≠ some (.call s op k)) :
    Sim2 U (w.set i x) { a with prog := fun j => if j = i then x else a.prog j } ph := by
  refine ⟨h.world, ?_, h.down, h.sound, h.line, fun p s j c hc => ?_, h.pend, h.res⟩
  · show (fun j => if j = i then x else a.prog j) = fun j => if j = i then x else w.prog j
    rw [h.prog]
  · obtain ⟨h1, ⟨op, k, h2, h3⟩, h4⟩ := h.mine p s j c hc
    refine ⟨h1, ⟨op, k, ?_, h3⟩, h4⟩
    show (if j = i then x else w.prog j) = _
    rw [if_neg]
    · exact h2
    · rintro rfl; exact hi s op k h2

/-- How many commands a deed carries out. -/
theorem sim2_step (hU : Readers U) {w' : State S} {e : Option (Ev M)} (hs : Step U w e w') (h : Sim2 U w a ph) (ha : NextFine U.call a) :
    ∃ l a' ph', (∀ l0 a0, ShakyRun U.call U.method U.proc a0 l0 a → ShakyRun U.call U.method U.proc a0 (l0 ++ l) a')
      ∧ seenOf l = e.toList ∧ w'.calls = w.calls + carriedOut l ∧ Sim2 U w' a' ph' := by
  cases hs with
  | tick d =>
    refine ⟨[.ev (.tick d)], _, ph, fun _ _ h0 => .snoc h0 (.tick a d), rfl, rfl, ?_⟩
    refine ⟨?_, h.prog, h.down, h.sound, h.line, h.mine, h.pend, h.res⟩
    show World.tick a.world d = World.tick w.world d
    rw [h.world]
  | start i m h1 =>
    exact ⟨[.ev (.start i m)], _, ph, fun _ _ h0 => .snoc h0 (.start a i m (by rw [h.prog]; exact h1)), rfl, rfl,
      h.set fun s op k e => by rw [h1] at e; cases e⟩
  | finish i r h1 =>
    exact ⟨[.ev (.finish i r)], _, ph, fun _ _ h0 => .snoc h0 (.finish a i r (by rw [h.prog]; exact h1)), rfl, rfl,
      h.set fun s op k e => by rw [h1] at e; injection e with e; cases e⟩
  | begin i s op k h1 h2 =>
    exact ⟨[], a, ph, fun _ _ h0 => by rw [List.append_nil]; exact h0, rfl, rfl, h.begin ha h1 h2⟩
  | work p s c' h1 h2 =>
    rcases h.work hU h1 h2 with ⟨ph', h3⟩ | ⟨a', ph', h3, h4⟩
    · exact ⟨[], a, ph', fun _ _ h0 => by rw [List.append_nil]; exact h0, rfl, rfl, h3⟩
    · exact ⟨[.breaks p s], a', ph', fun _ _ h0 => .snoc h0 h3, rfl, rfl, h4⟩
  | ret i s op k c r c' h1 h2 h3 h4 h5 =>
    obtain ⟨x, a', ph', hx, g1, g2⟩ := h.ret hU h1 h2 h3 h4 h5
    refine ⟨[x], a', ph', fun _ _ h0 => .snoc h0 g1, ?_, ?_, g2⟩
    · rcases hx with rfl | rfl | rfl <;> rfl
    · rcases hx with rfl | rfl | rfl <;> rfl
  | serve p s x y reply rest st h1 h2 =>
    obtain ⟨d, a', ph', hd, g1, g2⟩ := h.serve ha h1 h2
    refine ⟨[d], a', ph', fun _ _ h0 => .snoc h0 g1, ?_, ?_, g2⟩
    · rcases hd with ⟨i, rfl⟩ | rfl <;> rfl
    · rcases hd with ⟨i, rfl⟩ | rfl <;> rfl

theorem seenOf_append (l m : List (Deed S M)) : seenOf (l ++ m) = seenOf l ++ seenOf m := by
  induction l with
  | nil => rfl
  | cons x l ih => cases x <;> simp [seenOf, ih]

theorem carriedOut_append (l m : List (Deed S M)) : carriedOut (l ++ m) = carriedOut l + carriedOut m := by
  induction l with
  | nil => simp [carriedOut]
  | cons x l ih => cases x <;> simp [carriedOut, ih] <;> omega

theorem sim2_run (hU : Readers U) {w0 : State S} {tr : List (Ev M)} (hr : Run U w0 tr w)
    {a0 : Shaky S} {ph0} (h0 : Sim2 U w0 a0 ph0)
    (hp : ∀ l a, ShakyRun U.call U.method U.proc a0 l a → seenOf l <+: tr → w0.calls + carriedOut l ≤ w.calls → NextFine U.call a) :
    ∃ l a ph, ShakyRun U.call U.method U.proc a0 l a ∧ seenOf l = tr ∧ w0.calls + carriedOut l = w.calls ∧ Sim2 U w a ph := by
  induction hr with
  | nil => exact ⟨[], a0, ph0, .nil, rfl, by simp [carriedOut], h0⟩
  | @snoc tr e w w' hr hs ih =>
    obtain ⟨l, a, ph, h1, h2, h3, h4⟩ := ih fun l a hl hv hc =>
      hp l a hl (hv.trans (List.prefix_append _ _)) (Nat.le_trans hc (step_calls hs))
    have ha := hp l a h1 (by rw [h2]; exact List.prefix_append _ _) (by rw [h3]; exact step_calls hs)
    obtain ⟨m, a', ph', g1, g2, g3, g4⟩ := sim2_step hU hs h4 ha
    exact ⟨l ++ m, a', ph', g1 l a0 h1, by rw [seenOf_append, h2, g2], by rw [carriedOut_append, g3, ← h3]; omega, g4⟩

theorem sim2_init (U : Setup S M) (w : World S) : Sim2 U (State.init w) (Shaky.start w) fun _ _ => none := by
  refine ⟨rfl, rfl, fun p s => ?_, fun _ _ => ?_, fun _ _ => ?_, fun p s i c hc => (by cases hc), fun p s op ho => (by cases ho), fun i r => ?_⟩
  · exact ⟨fun h => h.elim, fun h => by cases h⟩
  · exact ⟨fun u => by simp [State.init, Sched.init, Sched.At.inside], rfl, rfl, fun t _ => rfl, Nat.le_refl _⟩
  · exact .quiet (fun _ => rfl) rfl rfl rfl fun _ => ⟨rfl, rfl⟩
  · constructor
    · intro h; cases h
    · rintro ⟨s, c, h⟩; cases h

/-- **C85**: whatever the goroutines of all processes see of their pool methods, when connections may break at any
moment, is what they could see if every call on a connection were carried out at one moment or failed, the caller of a
call on a broken connection possibly getting an error for a result, and the call of one that failed possibly being
carried out later. -/
theorem C85_refines (hU : Clients U) {w0 : World S} {tr : List (Ev M)} {x : State S} (hr : Run U (State.init w0) tr x)
    (hp : ∀ l a, ShakyRun U.call U.method U.proc (Shaky.start w0) l a → seenOf l <+: tr → carriedOut l ≤ x.calls → NextFine U.call a) :
    ∃ l a, ShakyRun U.call U.method U.proc (Shaky.start w0) l a ∧ seenOf l = tr ∧ carriedOut l = x.calls
      ∧ a.world = x.world ∧ a.prog = x.prog ∧ ∀ p s, a.down p s ↔ (x.line p s).conn.ended = true := by
  obtain ⟨l, a, ph, h1, h2, h3, h4⟩ := sim2_run hU.readers hr (sim2_init U w0) fun l a hl hv hc =>
    hp l a hl hv (by rw [show (State.init w0).calls = 0 from rfl] at hc; omega)
  exact ⟨l, a, h1, h2, by rw [show (State.init w0).calls = 0 from rfl] at h3; omega, h4.world, h4.prog, h4.down⟩

end

end Wired
end Verif
