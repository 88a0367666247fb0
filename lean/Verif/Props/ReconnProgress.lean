import Verif.Spec.ReconnProgress
import Verif.Props.ReconnUse
import Verif.Props.ProgressUse
/-!
C73: calls on a client that is used, closed and reconnected by several goroutines get on.
-/

namespace Verif
namespace Reconn
open Spec
open Spec.Re
open Life (Kind errClosed errAlready)
open Sched (ClientCall)

variable {T : Type} [DecidableEq T]

/-! ## Runs are finite -/

/-- How much a goroutine has still to do. -/
def At.cost : At → Nat
  | .user a => a.cost
  | .called => 6
  | .locked => 5
  | .dial => 4
  | .setRaw _ => 3
  | .setConn _ => 2

def todo (ts : List T) (s : State T) : Nat := (ts.map fun t => (s.pc t).cost).sum

theorem todo_goto {s s' : State T} {ts : List T} {t : T} {a : At} (hp : s'.pc = (s.goto t a).pc) (hm : t ∈ ts)
    (ha : a.cost < (s.pc t).cost) : todo ts s' < todo ts s := by
  unfold todo
  rw [hp]
  refine Sched.sum_lt _ _ t ?_ ts ?_ hm
  · simp only [goto_pc, if_true]; exact ha
  · intro u _
    rw [goto_pc]
    by_cases hu : u = t
    · simp only [hu, if_true]; exact Nat.le_of_lt ha
    · simp only [hu, if_false]; exact Nat.le_refl _

/-- What the server has sent on connection `g` and has not arrived. -/
def pending (P : Params T) (s : State T) (g : Nat) : Nat := (P.resp g (s.conns g).sent).length - (s.conns g).got.length

def alive (s : State T) (g : Nat) : Nat := if (s.conns g).ended then 0 else 1

/-- What is still to happen, in order of weight. -/
def measure (P : Params T) (ts : List T) (s : State T) : Nat × Nat × Nat :=
  (todo ts s, ((List.range s.dialled).map (pending P s)).sum,
    ((List.range s.dialled).map (alive s)).sum + (if s.crashed then 0 else 1))

def Among (ts : List T) (s : State T) : Prop := ∀ t, s.pc t ≠ .user .idle → t ∈ ts

theorem goto_same {s : State T} {t : T} {a : At} (h : s.pc t = a) : s.goto t a = s := by
  have hpc : (s.goto t a).pc = s.pc := by
    funext u
    rw [goto_pc]
    by_cases hu : u = t
    · simp only [hu, if_true]; exact h.symm
    · simp only [hu, if_false]
  show ({ s with pc := (s.goto t a).pc } : State T) = s
  rw [hpc]

omit [DecidableEq T] in
theorem setConn_same {s : State T} {g : Nat} {c : Conn} (h : s.conns g = c) : s.setConn g c = s := by
  have hc : (s.setConn g c).conns = s.conns := by
    funext k
    show (if k = g then c else s.conns k) = s.conns k
    by_cases hk : k = g
    · simp only [hk, if_true]; exact h.symm
    · simp only [hk, if_false]
  show ({ s with conns := (s.setConn g c).conns } : State T) = s
  rw [hc]

omit [DecidableEq T] in
theorem setConn_at (s : State T) (g k : Nat) (c : Conn) : (s.setConn g c).conns k = if k = g then c else s.conns k := rfl

theorem works_measure {P : Params T} {ts : List T} {s s' : State T} (h : Among ts s) (hw : Works P s s') :
    Sched.Less (measure P ts s') (measure P ts s) := by
  obtain ⟨hs, hne, hst⟩ := hw
  have first : ∀ (t : T) (a : At), s'.pc = (s.goto t a).pc → s.pc t ≠ .user .idle → a.cost < (s.pc t).cost →
      Sched.Less (measure P ts s') (measure P ts s) :=
    fun t a h1 h2 h3 => .left _ _ (todo_goto h1 (h t h2) h3)
  have crash : s' = { s with crashed := true } → Sched.Less (measure P ts s') (measure P ts s) := by
    intro he
    have hc : s.crashed = false := by
      cases hc : s.crashed with
      | false => rfl
      | true => exact absurd (by rw [he, ← hc]) hne
    rw [he]
    refine .right _ (.right _ ?_)
    show ((List.range s.dialled).map (alive s)).sum + 0 < ((List.range s.dialled).map (alive s)).sum + (if s.crashed then 0 else 1)
    simp [hc]
  cases hs with
  | call t c hp hc => exact absurd ⟨t, hp, by simp [goto_pc]⟩ hst
  | callClose t hp _ => exact absurd ⟨t, hp, by simp [goto_pc]⟩ hst
  | callReconnect t hp _ => exact absurd ⟨t, hp, by simp [goto_pc]⟩ hst
  | writeDeadlineNil t c hp _ _ => exact crash rfl
  | readDeadlineNil t c hp _ => exact crash rfl
  | closeRawNil t hp _ => exact crash rfl
  | closeChanPanic t hp _ => exact crash rfl
  | readDeadline t c w hp _ hwi =>
    exact first t (.user (.writing c w)) rfl (by simp [hp]) (by rw [hp]; simp only [At.cost, Sched.At.cost, Sched.wireLen, hwi]; omega)
  | noDeadline t c w hp _ hwi =>
    exact first t (.user (.writing c w)) rfl (by simp [hp]) (by rw [hp]; simp only [At.cost, Sched.At.cost, Sched.wireLen, hwi]; omega)
  | unencodable t c e hp _ =>
    exact first t (.user .idle) rfl (by rcases hp with ⟨hp, _⟩ | ⟨hp, _⟩ <;> simp [hp])
      (by rcases hp with ⟨hp, _⟩ | ⟨hp, _⟩ <;> rw [hp] <;> simp only [At.cost, Sched.At.cost] <;> omega)
  | unencodablePanic t c hp _ =>
    exact first t (.user .idle) rfl (by rcases hp with ⟨hp, _⟩ | ⟨hp, _⟩ <;> simp [hp])
      (by rcases hp with ⟨hp, _⟩ | ⟨hp, _⟩ <;> rw [hp] <;> simp only [At.cost, Sched.At.cost] <;> omega)
  | write t c x y hp _ _ =>
    have hx : x ≠ [] := by
      intro hx; subst hx
      apply hne
      rw [goto_same (a := .user (.writing c y)) hp]
      refine setConn_same ?_
      rw [List.append_nil]
      rfl
    refine first t (.user (.writing c y)) rfl (by simp [hp]) ?_
    have := List.length_pos_iff.2 hx
    rw [hp]; simp only [At.cost, Sched.At.cost, List.length_append]; omega
  | arrive g x y hg ho he hx =>
    have hx0 : x ≠ [] := by
      intro h0; subst h0
      apply hne
      refine setConn_same ?_
      rw [List.append_nil, List.append_nil]
    refine .right _ (.left _ _ ?_)
    refine Sched.sum_lt (T := Nat) (pending P s) _ g ?_ _ ?_ (List.mem_range.2 hg)
    · have := List.length_pos_iff.2 hx0
      simp only [pending, setConn_at, if_true, hx, List.length_append]; omega
    · intro k _
      by_cases hk : k = g
      · subst hk; simp only [pending, setConn_at, if_true, List.length_append]; omega
      · simp only [pending, setConn_at, hk, if_false]; exact Nat.le_refl _
  | hangUp g hg =>
    have hc : (s.conns g).ended = false := by
      cases hc : (s.conns g).ended with
      | false => rfl
      | true => exact absurd (setConn_same (by rw [← hc])) hne
    have e2 : (List.range s.dialled).map (pending P (s.setConn g { s.conns g with ended := true }))
        = (List.range s.dialled).map (pending P s) := by
      apply List.map_congr_left
      intro k _
      by_cases hk : k = g
      · subst hk; simp only [pending, setConn_at, if_true]
      · simp only [pending, setConn_at, hk, if_false]
    show Prod.Lex _ _ (todo ts s, ((List.range s.dialled).map (pending P (s.setConn g { s.conns g with ended := true }))).sum, _) _
    rw [e2]
    refine .right _ (.right _ (Nat.add_lt_add_right ?_ _))
    refine Sched.sum_lt (T := Nat) (alive s) _ g ?_ _ ?_ (List.mem_range.2 hg)
    · simp [alive, setConn_at, hc]
    · intro k _
      by_cases hk : k = g
      · subst hk; simp [alive, setConn_at]
      · simp [alive, setConn_at, hk]
  | closeRaw t g hp _ =>
    exact first t (.user (if P.kind = .text then .clearRaw else .idle)) rfl (by simp [hp])
      (by rw [hp]; split <;> simp only [At.cost, Sched.At.cost] <;> omega)
  | lock t c hp hl => exact first t (.user (.locked c)) rfl (by simp [hp]) (by rw [hp]; simp only [At.cost, Sched.At.cost]; omega)
  | refuse t c hp _ _ => exact first t (.user .idle) rfl (by simp [hp]) (by rw [hp]; simp only [At.cost, Sched.At.cost]; omega)
  | pass t c hp _ => exact first t (.user (.writeDeadline c)) rfl (by simp [hp]) (by rw [hp]; simp only [At.cost, Sched.At.cost]; omega)
  | writeDeadline t c hp _ _ => exact first t (.user (.readDeadline c)) rfl (by simp [hp]) (by rw [hp]; simp only [At.cost, Sched.At.cost]; omega)
  | writeFails t c x hp _ => exact first t (.user .idle) rfl (by simp [hp]) (by rw [hp]; simp only [At.cost, Sched.At.cost]; omega)
  | written t c hp _ => exact first t (.user (.reading c)) rfl (by simp [hp]) (by rw [hp]; simp only [At.cost, Sched.At.cost]; omega)
  | read t c hp _ => exact first t (.user .idle) rfl (by simp [hp]) (by rw [hp]; simp only [At.cost, Sched.At.cost]; omega)
  | readFails t c hp _ _ => exact first t (.user .idle) rfl (by simp [hp]) (by rw [hp]; simp only [At.cost, Sched.At.cost]; omega)
  | readTimeout t c hp _ _ _ => exact first t (.user .idle) rfl (by simp [hp]) (by rw [hp]; simp only [At.cost, Sched.At.cost]; omega)
  | closeAgain t hp _ _ => exact first t (.user .idle) rfl (by simp [hp]) (by rw [hp]; simp only [At.cost, Sched.At.cost]; omega)
  | closeGo t hp _ => exact first t (.user .closeRaw) rfl (by simp [hp]) (by rw [hp]; simp only [At.cost, Sched.At.cost]; omega)
  | clearRaw t hp => exact first t (.user .closeChan) rfl (by simp [hp]) (by rw [hp]; simp only [At.cost, Sched.At.cost]; omega)
  | closeChan t hp _ _ => exact first t (.user .clearChan) rfl (by simp [hp]) (by rw [hp]; simp only [At.cost, Sched.At.cost]; omega)
  | clearChan t hp => exact first t (.user .idle) rfl (by simp [hp]) (by rw [hp]; simp only [At.cost, Sched.At.cost]; omega)
  | lockReconnect t hp _ => exact first t .locked rfl (by simp [hp]) (by rw [hp]; simp only [At.cost]; omega)
  | noRaw t hp _ => exact first t .dial rfl (by simp [hp]) (by rw [hp]; simp only [At.cost]; omega)
  | shut t g hp _ _ => exact first t .dial rfl (by simp [hp]) (by rw [hp]; simp only [At.cost]; omega)
  | shutFails t g hp _ _ => exact first t (.user .idle) rfl (by simp [hp]) (by rw [hp]; simp only [At.cost, Sched.At.cost]; omega)
  | dial t hp => exact first t (.setRaw s.dialled) rfl (by simp [hp]) (by rw [hp]; simp only [At.cost]; omega)
  | dialFails t hp => exact first t (.user .idle) rfl (by simp [hp]) (by rw [hp]; simp only [At.cost, Sched.At.cost]; omega)
  | setRaw t g hp => exact first t (.setConn g) rfl (by simp [hp]) (by rw [hp]; simp only [At.cost]; omega)
  | setConn t g hp => exact first t (.user .idle) rfl (by simp [hp]) (by rw [hp]; simp only [At.cost, Sched.At.cost]; omega)

theorem Among.works {P : Params T} {ts : List T} {s s' : State T} (h : Among ts s) (hw : Works P s s') : Among ts s' := by
  intro t ht
  refine h t fun hi => hw.2.2 ⟨t, hi, ht⟩

/-- A step touches one goroutine. -/
theorem step_pc {P : Params T} {s s' : State T} (hs : Step P s s') : ∃ ts : List T, ∀ u, u ∉ ts → s'.pc u = s.pc u := by
  have key : ∀ (t : T) (a : At), s'.pc = (s.goto t a).pc → ∃ ts : List T, ∀ u, u ∉ ts → s'.pc u = s.pc u := by
    intro t a he
    refine ⟨[t], fun u hu => ?_⟩
    rw [he, goto_pc]
    simp only [List.mem_singleton] at hu
    simp [hu]
  cases hs <;> first | exact ⟨[], fun _ _ => rfl⟩ | exact key _ _ rfl

theorem among {P : Params T} {s : State T} (h : Reach P s) : ∃ ts, Among ts s := by
  induction h with
  | init => exact ⟨[], fun t ht => absurd rfl ht⟩
  | @step s s' _ hs ih =>
    obtain ⟨ts, hts⟩ := ih
    obtain ⟨us, hus⟩ := step_pc hs
    refine ⟨us ++ ts, fun t ht => ?_⟩
    by_cases hm : t ∈ us
    · exact List.mem_append.2 (.inl hm)
    · rw [hus t hm] at ht; exact List.mem_append.2 (.inr (hts t ht))

/-- **C73**: whatever the server does and whoever calls Close and Reconnect, calls that are under way do not go on
for ever: without new calls only finitely many things happen. -/
theorem C73_finite (P : Params T) (s : State T) (h : Reach P s) :
    ¬ ∃ f : Nat → State T, f 0 = s ∧ ∀ n, Works P (f n) (f (n + 1)) := by
  rintro ⟨f, h0, hf⟩
  obtain ⟨ts, hts⟩ := among h
  have hin : ∀ n, Among ts (f n) := by
    intro n
    induction n with
    | zero => rw [h0]; exact hts
    | succ n ih => exact ih.works (hf n)
  exact Sched.no_descent (Sched.less_wf.apply _) (fun n => measure P ts (f n)) rfl fun n => works_measure (hin n) (hf n)

theorem WorksOn.trans {P : Params T} {s s' s'' : State T} (h : WorksOn P s s') (h' : WorksOn P s' s'') : WorksOn P s s'' := by
  induction h' with
  | refl => exact h
  | step _ h1 h2 ih => exact .step ih h1 h2

/-- **C73**: from every state the calls under way can be carried on, without new calls and without the other side
hanging up, until they stop. -/
theorem C73_run_on (P : Params T) (s : State T) (h : Reach P s) : ∃ s', WorksOn P s s' ∧ Reach P s' ∧ Blocked P s' := by
  obtain ⟨ts, hts⟩ := among h
  generalize hm : measure P ts s = m
  induction m using Sched.less_wf.induction generalizing s with
  | h m ih =>
    by_cases hb : Blocked P s
    · exact ⟨s, .refl, h, hb⟩
    · obtain ⟨s', hw, he⟩ : ∃ s', Works P s s' ∧ ¬ HungUp s s' := by
        apply Classical.byContradiction
        intro hn
        exact hb fun s' hw => Classical.byContradiction fun he => hn ⟨s', hw, he⟩
      obtain ⟨s'', h1, h2, h3⟩ := ih _ (hm ▸ works_measure hts hw) s' (.step h hw.1) (hts.works hw) rfl
      exact ⟨s'', WorksOn.trans (.step .refl hw he) h1, h2, h3⟩

/-! ## Where they can stop -/

/-- What has arrived was sent. -/
theorem got_prefix {P : Params T} (hon : ∀ g, Online (P.resp g)) {s : State T} (h : Reach P s) :
    ∀ g, (s.conns g).got <+: P.resp g (s.conns g).sent := by
  induction h with
  | init => exact fun g => ⟨P.resp g [], rfl⟩
  | @step s s' _ hs ih =>
    have set : ∀ (q : State T) (k : Nat) (c : Conn), q.conns = s.conns → c.got <+: P.resp k c.sent →
        ∀ g, ((q.setConn k c).conns g).got <+: P.resp g ((q.setConn k c).conns g).sent := by
      intro q k c hq hc g
      rw [setConn_at]
      by_cases hg : g = k
      · subst hg; simp only [if_true]; exact hc
      · simp only [hg, if_false, hq]; exact ih g
    cases hs with
    | write t c x y hp _ _ => exact set _ _ _ rfl ((ih s.conn).trans ((hon s.conn).2 _ _))
    | arrive g x y _ _ _ hx => exact set _ _ _ rfl ⟨y, hx.symm⟩
    | writeFails t c x hp _ => exact set _ _ _ rfl (ih s.conn)
    | hangUp g _ => exact set _ _ _ rfl (ih g)
    | read t c hp _ => exact set _ _ _ rfl (ih s.conn)
    | readFails t c hp _ _ => exact set _ _ _ rfl (ih s.conn)
    | readTimeout t c hp _ _ _ => exact set _ _ _ rfl (ih s.conn)
    | closeRaw t g hp _ => exact set _ _ _ rfl (ih g)
    | shut t g hp _ _ => exact set _ _ _ rfl (ih g)
    | _ => exact ih

/-- A step in which goroutine `t`, which is in a call, moves. -/
theorem not_blocked {P : Params T} {s s' : State T} (hb : Blocked P s) (hs : Step P s s') {t : T} (a : At)
    (hp : s'.pc = (s.goto t a).pc) (he : ∀ g, (s'.conns g).ended = (s.conns g).ended) (ht : s.pc t ≠ .user .idle)
    (ha : a ≠ s.pc t) : False := by
  have key : Works P s s' := ?_
  · obtain ⟨g, hg⟩ := hb s' key
    exact hg (he g)
  refine ⟨hs, ?_, ?_⟩
  · intro hc
    apply ha
    have : s'.pc t = a := by rw [hp, goto_pc]; simp
    rw [← this, hc]
  · rintro ⟨u, hu, hn⟩
    rw [hp, goto_pc] at hn
    by_cases hut : u = t
    · rw [hut] at hu; exact ht hu
    · simp only [hut, if_false] at hn; exact hn hu

/-- A panic is no stop. -/
theorem not_blocked_crash {P : Params T} {s : State T} (hb : Blocked P s) (hc : s.crashed = false)
    (hs : Step P s { s with crashed := true }) : False := by
  have key : Works P s { s with crashed := true } := ?_
  · obtain ⟨g, hg⟩ := hb _ key
    exact hg rfl
  refine ⟨hs, ?_, ?_⟩
  · intro he
    have := congrArg State.crashed he
    rw [hc] at this; cases this
  · rintro ⟨u, hu, hn⟩; exact hn hu

omit [DecidableEq T] in
theorem setConn_ended (s q : State T) (k : Nat) (c : Conn) (hq : q.conns = s.conns) (hc : c.ended = (s.conns k).ended) (g : Nat) :
    ((q.setConn k c).conns g).ended = (s.conns g).ended := by
  rw [setConn_at]
  by_cases hg : g = k
  · subst hg; simp only [if_true]; exact hc
  · simp only [hg, if_false, hq]

/-- **C73**: when the calls under way come to a stop, they have all returned; or exactly one operation waits for more
of its reply, on a connection that is open, with no deadline, having got everything the server has sent on it, and the
others wait for it to return: also those that have called Reconnect. -/
theorem C73_stop (P : Params T) (hon : ∀ g, Online (P.resp g)) (s : State T) (h : Reach P s) (hcr : s.crashed = false)
    (hb : Blocked P s) :
    AllDone s ∨
    ∃ t c, s.pc t = .user (.reading c) ∧ (c.rd s.cur.inbox).1 = .err .io ∧ s.cur.got = P.resp s.conn s.cur.sent ∧
      s.cur.isOpen = true ∧ s.cur.ended = false ∧ ¬ (P.timeout = true ∧ P.late = true) ∧
      ∀ u, u ≠ t → s.pc u = .user .idle ∨ (∃ d, s.pc u = .user (.called d)) ∨ s.pc u = .called := by
  have hex := excl h
  have go : ∀ {s' : State T} (t : T) (a : At), Step P s s' → s'.pc = (s.goto t a).pc →
      (∀ g, (s'.conns g).ended = (s.conns g).ended) → s.pc t ≠ .user .idle → a ≠ s.pc t → False :=
    fun t a h1 h2 h3 h4 h5 => not_blocked hb h1 a h2 h3 h4 h5
  have same : ∀ g, (s.conns g).ended = (s.conns g).ended := fun _ => rfl
  -- a goroutine that has the mutex can only be reading
  have inner : ∀ t, (s.pc t).inside = true → ∃ c, s.pc t = .user (.reading c) ∧ (c.rd s.cur.inbox).1 = .err .io ∧
      s.cur.isOpen = true ∧ s.cur.ended = false ∧ ¬ (P.timeout = true ∧ P.late = true) := by
    intro t ht
    cases hp : s.pc t with
    | called => rw [hp] at ht; cases ht
    | locked =>
      exfalso
      cases hr : s.raw with
      | none => exact go t .dial (.noRaw s t hp hr) rfl same (by simp [hp]) (by simp [hp])
      | some g =>
        cases ho : (s.conns g).isOpen with
        | true => exact go t .dial (.shut s t g hp hr ho) rfl (setConn_ended s _ g _ rfl rfl) (by simp [hp]) (by simp [hp])
        | false => exact go t (.user .idle) (.shutFails s t g hp hr ho) rfl same (by simp [hp]) (by simp [hp])
    | dial => exact (go t (.user .idle) (.dialFails s t hp) rfl same (by simp [hp]) (by simp [hp])).elim
    | setRaw g => exact (go t (.setConn g) (.setRaw s t g hp) rfl same (by simp [hp]) (by simp [hp])).elim
    | setConn g => exact (go t (.user .idle) (.setConn s t g hp) rfl same (by simp [hp]) (by simp [hp])).elim
    | user a =>
    cases a with
    | locked c =>
      exfalso
      by_cases hk : P.kind = .text
      · cases hr : s.raw with
        | some g => exact go t (.user (.writeDeadline c)) (.pass s t c hp fun _ => by simp [hr]) rfl same (by simp [hp]) (by simp [hp])
        | none => exact go t (.user .idle) (.refuse s t c hp hk hr) rfl same (by simp [hp]) (by simp [hp])
      · exact go t (.user (.writeDeadline c)) (.pass s t c hp fun hk' => absurd hk' hk) rfl same (by simp [hp]) (by simp [hp])
    | writeDeadline c =>
      exfalso
      cases hto : P.timeout with
      | true =>
        cases hr : s.raw with
        | some g => exact go t (.user (.readDeadline c)) (.writeDeadline s t c hp hto (by simp [hr])) rfl same (by simp [hp]) (by simp [hp])
        | none => exact not_blocked_crash hb hcr (.writeDeadlineNil s t c hp hto hr)
      | false =>
        cases hw : c.wire with
        | ok w => exact go t (.user (.writing c w)) (.noDeadline s t c w hp hto hw) rfl same (by simp [hp]) (by simp [hp])
        | err e => exact go t (.user .idle) (.unencodable s t c e (.inl ⟨hp, hto⟩) hw) rfl same (by simp [hp]) (by simp [hp])
        | panic => exact go t (.user .idle) (.unencodablePanic s t c (.inl ⟨hp, hto⟩) hw) rfl same (by simp [hp]) (by simp [hp])
    | readDeadline c =>
      exfalso
      cases hr : s.raw with
      | none => exact not_blocked_crash hb hcr (.readDeadlineNil s t c hp hr)
      | some g =>
        have hr' : s.raw ≠ none := by simp [hr]
        cases hw : c.wire with
        | ok w => exact go t (.user (.writing c w)) (.readDeadline s t c w hp hr' hw) rfl same (by simp [hp]) (by simp [hp])
        | err e => exact go t (.user .idle) (.unencodable s t c e (.inr ⟨hp, hr'⟩) hw) rfl same (by simp [hp]) (by simp [hp])
        | panic => exact go t (.user .idle) (.unencodablePanic s t c (.inr ⟨hp, hr'⟩) hw) rfl same (by simp [hp]) (by simp [hp])
    | writing c x =>
      exfalso
      by_cases hbad : s.cur.isOpen = false ∨ s.cur.ended = true ∨ s.cur.werr = true ∨ P.timeout = true ∧ P.late = true
      · exact go t (.user .idle) (.writeFails s t c x hp hbad) rfl (setConn_ended s _ _ _ rfl rfl) (by simp [hp]) (by simp [hp])
      · have ho : s.cur.isOpen = true := by cases ho : s.cur.isOpen <;> simp_all
        have hw : s.cur.werr = false := by cases hw : s.cur.werr <;> simp_all
        cases x with
        | nil => exact go t (.user (.reading c)) (.written s t c hp hw) rfl same (by simp [hp]) (by simp [hp])
        | cons b x =>
          exact go t (.user (.writing c [])) (.write s t c (b :: x) [] (by rw [List.append_nil]; exact hp) ho hw) rfl
            (setConn_ended s _ _ _ rfl rfl) (by simp [hp]) (by simp [hp])
    | reading c =>
      by_cases hio : (c.rd s.cur.inbox).1 = .err .io
      · refine ⟨c, rfl, hio, ?_, ?_, ?_⟩
        · cases ho : s.cur.isOpen with
          | true => rfl
          | false =>
            exact (go t (.user .idle) (.readFails s t c hp hio (.inl ho)) rfl (setConn_ended s _ _ _ rfl rfl) (by simp [hp])
              (by simp [hp])).elim
        · cases he : s.cur.ended with
          | false => rfl
          | true =>
            exact (go t (.user .idle) (.readFails s t c hp hio (.inr he)) rfl (setConn_ended s _ _ _ rfl rfl) (by simp [hp])
              (by simp [hp])).elim
        · rintro ⟨h1, h2⟩
          exact go t (.user .idle) (.readTimeout s t c hp hio h1 h2) rfl (setConn_ended s _ _ _ rfl rfl) (by simp [hp])
            (by simp [hp])
      · exact (go t (.user .idle) (.read s t c hp hio) rfl (setConn_ended s _ _ _ rfl rfl) (by simp [hp]) (by simp [hp])).elim
    | idle => rw [hp] at ht; cases ht
    | called c => rw [hp] at ht; cases ht
    | close => rw [hp] at ht; cases ht
    | closeRaw => rw [hp] at ht; cases ht
    | clearRaw => rw [hp] at ht; cases ht
    | closeChan => rw [hp] at ht; cases ht
    | clearChan => rw [hp] at ht; cases ht
  -- a goroutine that does not have it is between calls or waits for it
  have outer : ∀ u, (s.pc u).inside = false → s.pc u = .user .idle ∨ (∃ d, s.pc u = .user (.called d)) ∨ s.pc u = .called := by
    intro u hu
    cases hp : s.pc u with
    | called => exact .inr (.inr rfl)
    | locked => rw [hp] at hu; cases hu
    | dial => rw [hp] at hu; cases hu
    | setRaw g => rw [hp] at hu; cases hu
    | setConn g => rw [hp] at hu; cases hu
    | user a =>
    cases a with
    | idle => exact .inl rfl
    | called d => exact .inr (.inl ⟨d, rfl⟩)
    | close =>
      exfalso
      by_cases hk : P.kind = .text
      · cases hr : s.closeCh with
        | true => exact go u (.user .closeRaw) (.closeGo s u hp fun _ => hr) rfl same (by simp [hp]) (by simp [hp])
        | false => exact go u (.user .idle) (.closeAgain s u hp hk hr) rfl same (by simp [hp]) (by simp [hp])
      · exact go u (.user .closeRaw) (.closeGo s u hp fun hk' => absurd hk' hk) rfl same (by simp [hp]) (by simp [hp])
    | closeRaw =>
      exfalso
      cases hr : s.raw with
      | some g =>
        exact go u (.user (if P.kind = .text then .clearRaw else .idle)) (.closeRaw s u g hp hr) rfl
          (setConn_ended s _ _ _ rfl rfl) (by simp [hp]) (by rw [hp]; split <;> simp)
      | none => exact not_blocked_crash hb hcr (.closeRawNil s u hp hr)
    | clearRaw => exact (go u (.user .closeChan) (.clearRaw s u hp) rfl same (by simp [hp]) (by simp [hp])).elim
    | closeChan =>
      exfalso
      by_cases hx : s.closeCh = false ∨ s.chanClosed = true
      · exact not_blocked_crash hb hcr (.closeChanPanic s u hp hx)
      · have h1 : s.closeCh = true := by cases h1 : s.closeCh <;> simp_all
        have h2 : s.chanClosed = false := by cases h2 : s.chanClosed <;> simp_all
        exact go u (.user .clearChan) (.closeChan s u hp h1 h2) rfl same (by simp [hp]) (by simp [hp])
    | clearChan => exact (go u (.user .idle) (.clearChan s u hp) rfl same (by simp [hp]) (by simp [hp])).elim
    | locked c => rw [hp] at hu; cases hu
    | writeDeadline c => rw [hp] at hu; cases hu
    | readDeadline c => rw [hp] at hu; cases hu
    | writing c x => rw [hp] at hu; cases hu
    | reading c => rw [hp] at hu; cases hu
  cases hl : s.lock with
  | none =>
    refine .inl fun u => ?_
    have hu : (s.pc u).inside = false := by
      cases hu : (s.pc u).inside with
      | false => rfl
      | true => rw [(hex u).1 hu] at hl; cases hl
    rcases outer u hu with h1 | ⟨d, h1⟩ | h1
    · exact h1
    · exact (go u (.user (.locked d)) (.lock s u d h1 hl) rfl same (by simp [h1]) (by simp [h1])).elim
    · exact (go u .locked (.lockReconnect s u h1 hl) rfl same (by simp [h1]) (by simp [h1])).elim
  | some t =>
    right
    obtain ⟨c, h1, h2, h3, h4, h5⟩ := inner t ((hex t).2 hl)
    refine ⟨t, c, h1, h2, ?_, h3, h4, h5, fun u hu => outer u ?_⟩
    · obtain ⟨x, hx⟩ := got_prefix hon h s.conn
      cases x with
      | nil => rw [List.append_nil] at hx; exact hx
      | cons b x =>
        exfalso
        have hd : s.conn < s.dialled := by
          have hg := gen h
          by_cases hn : ∀ t, (s.pc t).next = none
          · rw [hg.none hn]; exact Nat.lt_succ_self _
          · apply Classical.byContradiction
            intro hlt
            apply hn
            intro t
            cases hx : (s.pc t).next with
            | none => rfl
            | some g => have := (hg.next t g hx).2; omega
        have key : Works P s (s.setConn s.conn
          { s.conns s.conn with got := (s.conns s.conn).got ++ (b :: x), inbox := (s.conns s.conn).inbox ++ (b :: x) }) := ?_
        · obtain ⟨g, hg⟩ := hb _ key
          exact hg (by refine setConn_ended s s s.conn _ rfl ?_ g; rfl)
        refine ⟨.arrive s s.conn (b :: x) [] hd h3 h4 (by rw [List.append_nil]; exact hx.symm), ?_, ?_⟩
        · intro he
          have := congrArg (fun q : State T => (q.conns s.conn).got.length) he
          simp [setConn_at] at this
        · rintro ⟨u, hu, hn⟩; exact hn hu
    · cases hi : (s.pc u).inside with
      | false => rfl
      | true =>
        have := (hex u).1 hi
        rw [hl] at this
        exact absurd (Option.some.inj this).symm hu

/-- **C73**: once the current connection is closed, by this side or by the other, and likewise if `Timeout` is set and
deadlines do pass, nothing can keep a call, of an operation, of Close or of Reconnect, from returning. -/
theorem C73_always (P : Params T) (hon : ∀ g, Online (P.resp g)) (s : State T) (h : Reach P s) (hcr : s.crashed = false)
    (hend : s.cur.isOpen = false ∨ s.cur.ended = true ∨ P.timeout = true ∧ P.late = true) (hb : Blocked P s) : AllDone s := by
  rcases C73_stop P hon s h hcr hb with h1 | ⟨t, c, _, _, _, h2, h3, h4, _⟩
  · exact h1
  · rcases hend with e | e | e
    · rw [h2] at e; cases e
    · rw [h3] at e; cases e
    · exact absurd e h4

/-- **C73**: if no operation, made after those of its epoch that have returned, would be left waiting by the server,
then the calls under way can only stop by all of them returning. -/
theorem C73_served (P : Params T) (hon : ∀ g, Online (P.resp g)) (hc : ∀ c, P.calls c → ClientCall P.kind c)
    (s : State T) (h : Reach P s) (hcr : s.crashed = false)
    (hans : ∀ c, P.calls c → .err .io ∉ oneByOne (P.resp s.conn) [] [] ((epoch s.conn s.log).map (·.1) ++ [c]))
    (hb : Blocked P s) : AllDone s := by
  rcases C73_stop P hon s h hcr hb with h1 | ⟨t, c, hp, hio, hgot, ho, hen, hlate, _⟩
  · exact h1
  · exfalso
    rcases told_all hon (fun c h => (hc c h).reader) h s.conn with ⟨hf, _⟩ | ⟨_, _, _, _, _, _, _, ht, _⟩
    · obtain ⟨p, x, e1, e2, e3, e4, _⟩ := hf.data
      have hx : x = [] := by
        have hgot' : (view s s.conn none).got = (P.of s.conn).resp (view s s.conn none).sent := hgot
        rw [hgot'] at e2
        exact List.append_cancel_left ((List.append_nil _).trans e2).symm
      subst hx
      rw [List.append_nil] at e3
      have hw := e4 t c [] (by rw [view_at, hp]; rfl)
      rw [List.append_nil] at hw
      apply hans c (known h t c (by rw [hp]; rfl))
      rw [Sched.oneByOne_append]
      refine List.mem_append.2 (.inr ?_)
      simp only [oneByOne, hw, List.nil_append]
      have e3' : (c.rd s.cur.inbox).1 = .err .io := hio
      have e5 : s.cur.inbox = _ := e3.symm
      rw [e5] at e3'
      exact List.mem_cons.2 (.inl e3'.symm)
    · rcases ht with e | e | e
      · have e' : s.cur.isOpen = false := e
        rw [ho] at e'; cases e'
      · have e' : s.cur.ended = true := e
        rw [hen] at e'; cases e'
      · exact hlate e

end Reconn
end Verif
