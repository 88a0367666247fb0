import Verif.Spec.Progress
import Verif.Props.SchedClose
/-!
C68: calls on a shared connection get on.
-/

namespace Verif
namespace Sched
open Spec
open Life (Kind errClosed errAlready)

variable {T : Type} [DecidableEq T]

/-! ## Runs are finite -/

/-- The size of a request. -/
def wireLen (c : Call Out) : Nat := match c.wire with | .ok w => w.length | _ => 0

/-- How much a goroutine has still to do. -/
def At.cost : At → Nat
  | .idle => 0
  | .called c => 6 + wireLen c
  | .locked c => 5 + wireLen c
  | .writeDeadline c => 4 + wireLen c
  | .readDeadline c => 3 + wireLen c
  | .writing _ x => 2 + x.length
  | .reading _ => 1
  | .close => 6
  | .closeRaw => 5
  | .clearRaw => 4
  | .closeChan => 3
  | .clearChan => 2

/-- How much the goroutines `ts` have still to do. -/
def todo (ts : List T) (s : State T) : Nat := (ts.map fun t => (s.pc t).cost).sum

omit [DecidableEq T] in
theorem sum_le (f g : T → Nat) : ∀ ts : List T, (∀ u ∈ ts, g u ≤ f u) → (ts.map g).sum ≤ (ts.map f).sum := by
  intro ts
  induction ts with
  | nil => intro _; exact Nat.le_refl _
  | cons a ts ih =>
    intro h
    simp only [List.map_cons, List.sum_cons]
    exact Nat.add_le_add (h a (by simp)) (ih fun u hu => h u (by simp [hu]))

omit [DecidableEq T] in
theorem sum_lt (f g : T → Nat) (t : T) (ht : g t < f t) : ∀ ts : List T, (∀ u ∈ ts, g u ≤ f u) → t ∈ ts →
    (ts.map g).sum < (ts.map f).sum := by
  intro ts
  induction ts with
  | nil => intro _ h; cases h
  | cons a ts ih =>
    intro h hm
    simp only [List.map_cons, List.sum_cons]
    rcases List.mem_cons.1 hm with rfl | hm
    · exact Nat.add_lt_add_of_lt_of_le ht (sum_le f g ts fun u hu => h u (by simp [hu]))
    · exact Nat.add_lt_add_of_le_of_lt (h a (by simp)) (ih (fun u hu => h u (by simp [hu])) hm)

theorem todo_goto {s s' : State T} {ts : List T} {t : T} {a : At} (hp : s'.pc = (s.goto t a).pc) (hm : t ∈ ts)
    (ha : a.cost < (s.pc t).cost) : todo ts s' < todo ts s := by
  unfold todo
  rw [hp]
  refine sum_lt _ _ t ?_ ts ?_ hm
  · simp only [goto_pc, if_true]; exact ha
  · intro u _
    rw [goto_pc]
    by_cases hu : u = t
    · simp only [hu, if_true]; exact Nat.le_of_lt ha
    · simp only [hu, if_false]; exact Nat.le_refl _

/-- What is still to happen, in order of weight. -/
def measure (P : Params T) (ts : List T) (s : State T) : Nat × Nat × Nat :=
  (todo ts s, (P.resp s.sent).length - s.got.length, (if s.ended then 0 else 1) + (if s.crashed then 0 else 1))

/-- Lexicographic order. -/
def Less : Nat × Nat × Nat → Nat × Nat × Nat → Prop := Prod.Lex (· < ·) (Prod.Lex (· < ·) (· < ·))

theorem less_wf : WellFounded Less :=
  (Prod.lex Nat.lt_wfRel (Prod.lex Nat.lt_wfRel Nat.lt_wfRel)).wf

/-- The goroutines in a call are among `ts`. -/
def Among (ts : List T) (s : State T) : Prop := ∀ t, s.pc t ≠ .idle → t ∈ ts

theorem works_measure {P : Params T} {ts : List T} {s s' : State T} (h : Among ts s) (hw : Works P s s') :
    Less (measure P ts s') (measure P ts s) := by
  obtain ⟨hs, hne, hst⟩ := hw
  have first : ∀ (t : T) (a : At), s'.pc = (s.goto t a).pc → s.pc t ≠ .idle → a.cost < (s.pc t).cost →
      Less (measure P ts s') (measure P ts s) :=
    fun t a h1 h2 h3 => .left _ _ (todo_goto h1 (h t h2) h3)
  have crash : s' = { s with crashed := true } → Less (measure P ts s') (measure P ts s) := by
    intro he
    have hc : s.crashed = false := by
      cases hc : s.crashed with
      | false => rfl
      | true => exact absurd (by rw [he, ← hc]) hne
    rw [he]
    refine .right _ (.right _ ?_)
    simp [hc]
  cases hs with
  | call t c hp hc => exact absurd ⟨t, hp, by simp [goto_pc]⟩ hst
  | callClose t hp _ => exact absurd ⟨t, hp, by simp [goto_pc]⟩ hst
  | lock t c hp hl => exact first t (.locked c) rfl (by simp [hp]) (by rw [hp]; simp only [At.cost]; omega)
  | refuse t c hp _ _ => exact first t .idle rfl (by simp [hp]) (by rw [hp]; simp only [At.cost]; omega)
  | pass t c hp _ => exact first t (.writeDeadline c) rfl (by simp [hp]) (by rw [hp]; simp only [At.cost]; omega)
  | writeDeadlineNil t c hp _ _ => exact crash rfl
  | writeDeadline t c hp _ _ => exact first t (.readDeadline c) rfl (by simp [hp]) (by rw [hp]; simp only [At.cost]; omega)
  | readDeadlineNil t c hp _ => exact crash rfl
  | readDeadline t c w hp _ hwi =>
    exact first t (.writing c w) rfl (by simp [hp]) (by rw [hp]; simp only [At.cost, wireLen, hwi]; omega)
  | noDeadline t c w hp _ hwi =>
    exact first t (.writing c w) rfl (by simp [hp]) (by rw [hp]; simp only [At.cost, wireLen, hwi]; omega)
  | unencodable t c e hp _ =>
    exact first t .idle rfl (by rcases hp with ⟨hp, _⟩ | ⟨hp, _⟩ <;> simp [hp])
      (by rcases hp with ⟨hp, _⟩ | ⟨hp, _⟩ <;> rw [hp] <;> simp only [At.cost] <;> omega)
  | unencodablePanic t c hp _ =>
    exact first t .idle rfl (by rcases hp with ⟨hp, _⟩ | ⟨hp, _⟩ <;> simp [hp])
      (by rcases hp with ⟨hp, _⟩ | ⟨hp, _⟩ <;> rw [hp] <;> simp only [At.cost] <;> omega)
  | write t c x y hp _ _ =>
    have hx : x ≠ [] := by
      intro hx; subst hx
      apply hne
      have hpc : (s.goto t (.writing c y)).pc = s.pc := by
        funext u
        rw [goto_pc]
        by_cases hu : u = t
        · simp only [hu, if_true]; exact hp.symm
        · simp only [hu, if_false]
      show ({ s.goto t (.writing c y) with sent := s.sent ++ [] } : State T) = s
      rw [List.append_nil]
      show ({ s with pc := (s.goto t (.writing c y)).pc } : State T) = s
      rw [hpc]
    refine first t (.writing c y) rfl (by simp [hp]) ?_
    have := List.length_pos_iff.2 hx
    rw [hp]; simp only [At.cost, List.length_append]; omega
  | writeFails t c x hp _ => exact first t .idle rfl (by simp [hp]) (by rw [hp]; simp only [At.cost]; omega)
  | written t c hp _ => exact first t (.reading c) rfl (by simp [hp]) (by rw [hp]; simp only [At.cost]; omega)
  | arrive x y ho he hx =>
    have hx0 : x ≠ [] := by
      intro h0; subst h0
      apply hne
      show ({ s with got := s.got ++ [], inbox := s.inbox ++ [] } : State T) = s
      rw [List.append_nil, List.append_nil]
    refine .right _ (.left _ _ ?_)
    have := List.length_pos_iff.2 hx0
    show (P.resp s.sent).length - (s.got ++ x).length < (P.resp s.sent).length - s.got.length
    rw [hx]; simp only [List.length_append]; omega
  | hangUp =>
    have hc : s.ended = false := by
      cases hc : s.ended with
      | false => rfl
      | true => exact absurd (show ({ s with ended := true } : State T) = s by rw [← hc]) hne
    refine .right _ (.right _ ?_)
    simp [hc]
  | read t c hp _ => exact first t .idle rfl (by simp [hp]) (by rw [hp]; simp only [At.cost]; omega)
  | readFails t c hp _ _ => exact first t .idle rfl (by simp [hp]) (by rw [hp]; simp only [At.cost]; omega)
  | readTimeout t c hp _ _ _ => exact first t .idle rfl (by simp [hp]) (by rw [hp]; simp only [At.cost]; omega)
  | closeAgain t hp _ _ => exact first t .idle rfl (by simp [hp]) (by rw [hp]; simp only [At.cost]; omega)
  | closeGo t hp _ => exact first t .closeRaw rfl (by simp [hp]) (by rw [hp]; simp only [At.cost]; omega)
  | closeRawNil t hp _ => exact crash rfl
  | closeRaw t hp _ =>
    exact first t (if P.kind = .text then .clearRaw else .idle) rfl (by simp [hp])
      (by rw [hp]; split <;> simp only [At.cost] <;> omega)
  | clearRaw t hp => exact first t .closeChan rfl (by simp [hp]) (by rw [hp]; simp only [At.cost]; omega)
  | closeChanPanic t hp _ => exact crash rfl
  | closeChan t hp _ _ => exact first t .clearChan rfl (by simp [hp]) (by rw [hp]; simp only [At.cost]; omega)
  | clearChan t hp => exact first t .idle rfl (by simp [hp]) (by rw [hp]; simp only [At.cost]; omega)

theorem Among.works {P : Params T} {ts : List T} {s s' : State T} (h : Among ts s) (hw : Works P s s') : Among ts s' := by
  intro t ht
  refine h t fun hi => hw.2.2 ⟨t, hi, ht⟩

/-- A step touches one goroutine. -/
theorem step_pc {P : Params T} {s s' : State T} (hs : Step P s s') : ∃ ts : List T, ∀ u, u ∉ ts → s'.pc u = s.pc u := by
  have key : ∀ (t : T) (a : At), s'.pc = (s.goto t a).pc → ∃ ts : List T, ∀ u, u ∉ ts → s'.pc u = s.pc u := by
    intro t a he
    refine ⟨[t], fun u hu => ?_⟩
    rw [he, goto_pc]
    simp only [List.mem_singleton] at hu
    simp [hu]
  cases hs <;> first | exact ⟨[], fun _ _ => rfl⟩ | exact key _ _ rfl

theorem among {P : Params T} {s : State T} (h : Reach P s) : ∃ ts, Among ts s := by
  induction h with
  | init => exact ⟨[], fun t ht => absurd rfl ht⟩
  | @step s s' _ hs ih =>
    obtain ⟨ts, hts⟩ := ih
    obtain ⟨us, hus⟩ := step_pc hs
    refine ⟨us ++ ts, fun t ht => ?_⟩
    by_cases hm : t ∈ us
    · exact List.mem_append.2 (.inl hm)
    · rw [hus t hm] at ht; exact List.mem_append.2 (.inr (hts t ht))

theorem no_descent {α : Type} {r : α → α → Prop} {x : α} (h : Acc r x) :
    ∀ f : Nat → α, f 0 = x → (∀ n, r (f (n + 1)) (f n)) → False := by
  induction h with
  | intro x _ ih =>
    intro f h0 hf
    exact ih (f 1) (h0 ▸ hf 0) (fun n => f (n + 1)) rfl fun n => hf (n + 1)

/-- **C68**: whatever the server does and whoever calls Close, calls that are under way do not go on
for ever: without new calls only finitely many things happen. -/
theorem C68_finite (P : Params T) (s : State T) (h : Reach P s) :
    ¬ ∃ f : Nat → State T, f 0 = s ∧ ∀ n, Works P (f n) (f (n + 1)) := by
  rintro ⟨f, h0, hf⟩
  obtain ⟨ts, hts⟩ := among h
  have hin : ∀ n, Among ts (f n) := by
    intro n
    induction n with
    | zero => rw [h0]; exact hts
    | succ n ih => exact ih.works (hf n)
  exact no_descent (less_wf.apply _) (fun n => measure P ts (f n)) rfl fun n => works_measure (hin n) (hf n)

/-! ## Where they can stop -/

/-- What has arrived was sent. -/
theorem got_prefix {P : Params T} (hon : Online P.resp) {s : State T} (h : Reach P s) : s.got <+: P.resp s.sent := by
  induction h with
  | init => exact ⟨P.resp [], rfl⟩
  | @step s s' _ hs ih =>
    cases hs with
    | write t c x y hp _ _ => exact ih.trans (hon.2 _ _)
    | arrive x y _ _ hx => exact ⟨y, hx.symm⟩
    | _ => exact ih

theorem ret_ended (s : State T) (t : T) (c : Call Out) (r : Res Out) : (s.ret t c r).ended = s.ended := rfl

/-- A step in which goroutine `t`, which is in a call, moves. -/
theorem not_blocked {P : Params T} {s s' : State T} (hb : Blocked P s) (hs : Step P s s') {t : T} (a : At)
    (hp : s'.pc = (s.goto t a).pc) (he : s'.ended = s.ended) (ht : s.pc t ≠ .idle) (ha : a ≠ s.pc t) : False := by
  refine hb s' ⟨hs, ?_, ?_⟩ he
  · intro hc
    apply ha
    have : s'.pc t = a := by rw [hp, goto_pc]; simp
    rw [← this, hc]
  · rintro ⟨u, hu, hn⟩
    rw [hp, goto_pc] at hn
    by_cases hut : u = t
    · rw [hut] at hu; exact ht hu
    · simp only [hut, if_false] at hn; exact hn hu

/-- A panic is no stop. -/
theorem not_blocked_crash {P : Params T} {s : State T} (hb : Blocked P s) (hc : s.crashed = false)
    (hs : Step P s { s with crashed := true }) : False := by
  refine hb _ ⟨hs, ?_, ?_⟩ rfl
  · intro he
    have := congrArg State.crashed he
    rw [hc] at this; cases this
  · rintro ⟨u, hu, hn⟩; exact hn hu

/-- **C68**: when the calls under way come to a stop, they have all returned; or exactly one of them waits for
more of its reply, on an open connection, with no deadline, having got everything the server has sent, and
the others wait for it to return. -/
theorem C68_stop (P : Params T) (hon : Online P.resp) (s : State T) (h : Reach P s) (hcr : s.crashed = false)
    (hb : Blocked P s) :
    AllDone s ∨
    ∃ t c, s.pc t = .reading c ∧ (c.rd s.inbox).1 = .err .io ∧ s.got = P.resp s.sent ∧ s.isOpen = true ∧
      s.ended = false ∧ ¬ (P.timeout = true ∧ P.late = true) ∧
      ∀ u, u ≠ t → s.pc u = .idle ∨ ∃ d, s.pc u = .called d := by
  have hex := excl h
  -- a goroutine that has the mutex can only be reading
  have inner : ∀ t, (s.pc t).inside = true → ∃ c, s.pc t = .reading c ∧ (c.rd s.inbox).1 = .err .io ∧
      s.isOpen = true ∧ s.ended = false ∧ ¬ (P.timeout = true ∧ P.late = true) := by
    intro t ht
    cases hp : s.pc t with
    | locked c =>
      exfalso
      by_cases hk : P.kind = .text
      · cases hr : s.raw with
        | true => exact not_blocked hb (.pass s t c hp fun _ => hr) (.writeDeadline c) rfl rfl (by simp [hp]) (by simp [hp])
        | false => exact not_blocked hb (.refuse s t c hp hk hr) .idle rfl rfl (by simp [hp]) (by simp [hp])
      · exact not_blocked hb (.pass s t c hp fun hk' => absurd hk' hk) (.writeDeadline c) rfl rfl (by simp [hp]) (by simp [hp])
    | writeDeadline c =>
      exfalso
      cases hto : P.timeout with
      | true =>
        cases hr : s.raw with
        | true => exact not_blocked hb (.writeDeadline s t c hp hto hr) (.readDeadline c) rfl rfl (by simp [hp]) (by simp [hp])
        | false => exact not_blocked_crash hb hcr (.writeDeadlineNil s t c hp hto hr)
      | false =>
        cases hw : c.wire with
        | ok w => exact not_blocked hb (.noDeadline s t c w hp hto hw) (.writing c w) rfl rfl (by simp [hp]) (by simp [hp])
        | err e => exact not_blocked hb (.unencodable s t c e (.inl ⟨hp, hto⟩) hw) .idle rfl rfl (by simp [hp]) (by simp [hp])
        | panic => exact not_blocked hb (.unencodablePanic s t c (.inl ⟨hp, hto⟩) hw) .idle rfl rfl (by simp [hp]) (by simp [hp])
    | readDeadline c =>
      exfalso
      cases hr : s.raw with
      | false => exact not_blocked_crash hb hcr (.readDeadlineNil s t c hp hr)
      | true =>
        cases hw : c.wire with
        | ok w => exact not_blocked hb (.readDeadline s t c w hp hr hw) (.writing c w) rfl rfl (by simp [hp]) (by simp [hp])
        | err e => exact not_blocked hb (.unencodable s t c e (.inr ⟨hp, hr⟩) hw) .idle rfl rfl (by simp [hp]) (by simp [hp])
        | panic => exact not_blocked hb (.unencodablePanic s t c (.inr ⟨hp, hr⟩) hw) .idle rfl rfl (by simp [hp]) (by simp [hp])
    | writing c x =>
      exfalso
      by_cases hbad : s.isOpen = false ∨ s.ended = true ∨ s.werr = true ∨ P.timeout = true ∧ P.late = true
      · exact not_blocked hb (.writeFails s t c x hp hbad) .idle rfl rfl (by simp [hp]) (by simp [hp])
      · have ho : s.isOpen = true := by cases ho : s.isOpen <;> simp_all
        have hw : s.werr = false := by cases hw : s.werr <;> simp_all
        cases x with
        | nil => exact not_blocked hb (.written s t c hp hw) (.reading c) rfl rfl (by simp [hp]) (by simp [hp])
        | cons b x =>
          refine not_blocked hb (.write s t c (b :: x) [] (by rw [List.append_nil]; exact hp) ho hw) (.writing c []) rfl rfl
            (by simp [hp]) (by simp [hp])
    | reading c =>
      by_cases hio : (c.rd s.inbox).1 = .err .io
      · refine ⟨c, rfl, hio, ?_, ?_, ?_⟩
        · cases ho : s.isOpen with
          | true => rfl
          | false =>
            exact (not_blocked hb (.readFails s t c hp hio (.inl ho)) .idle rfl rfl (by simp [hp]) (by simp [hp])).elim
        · cases he : s.ended with
          | false => rfl
          | true =>
            exact (not_blocked hb (.readFails s t c hp hio (.inr he)) .idle rfl rfl (by simp [hp]) (by simp [hp])).elim
        · rintro ⟨h1, h2⟩
          exact not_blocked hb (.readTimeout s t c hp hio h1 h2) .idle rfl rfl (by simp [hp]) (by simp [hp])
      · exact (not_blocked hb (.read s t c hp hio) .idle rfl rfl (by simp [hp]) (by simp [hp])).elim
    | idle => rw [hp] at ht; cases ht
    | called c => rw [hp] at ht; cases ht
    | close => rw [hp] at ht; cases ht
    | closeRaw => rw [hp] at ht; cases ht
    | clearRaw => rw [hp] at ht; cases ht
    | closeChan => rw [hp] at ht; cases ht
    | clearChan => rw [hp] at ht; cases ht
  -- a goroutine that does not have it is between calls or waits for it
  have outer : ∀ u, (s.pc u).inside = false → s.pc u = .idle ∨ ∃ d, s.pc u = .called d := by
    intro u hu
    cases hp : s.pc u with
    | idle => exact .inl rfl
    | called d => exact .inr ⟨d, rfl⟩
    | close =>
      exfalso
      by_cases hk : P.kind = .text
      · cases hr : s.closeCh with
        | true => exact not_blocked hb (.closeGo s u hp fun _ => hr) .closeRaw rfl rfl (by simp [hp]) (by simp [hp])
        | false => exact not_blocked hb (.closeAgain s u hp hk hr) .idle rfl rfl (by simp [hp]) (by simp [hp])
      · exact not_blocked hb (.closeGo s u hp fun hk' => absurd hk' hk) .closeRaw rfl rfl (by simp [hp]) (by simp [hp])
    | closeRaw =>
      exfalso
      cases hr : s.raw with
      | true =>
        exact not_blocked hb (.closeRaw s u hp hr) (if P.kind = .text then .clearRaw else .idle) rfl rfl (by simp [hp])
          (by rw [hp]; split <;> simp)
      | false => exact not_blocked_crash hb hcr (.closeRawNil s u hp hr)
    | clearRaw => exact (not_blocked hb (.clearRaw s u hp) .closeChan rfl rfl (by simp [hp]) (by simp [hp])).elim
    | closeChan =>
      exfalso
      by_cases hx : s.closeCh = false ∨ s.chanClosed = true
      · exact not_blocked_crash hb hcr (.closeChanPanic s u hp hx)
      · have h1 : s.closeCh = true := by cases h1 : s.closeCh <;> simp_all
        have h2 : s.chanClosed = false := by cases h2 : s.chanClosed <;> simp_all
        exact not_blocked hb (.closeChan s u hp h1 h2) .clearChan rfl rfl (by simp [hp]) (by simp [hp])
    | clearChan => exact (not_blocked hb (.clearChan s u hp) .idle rfl rfl (by simp [hp]) (by simp [hp])).elim
    | locked c => rw [hp] at hu; cases hu
    | writeDeadline c => rw [hp] at hu; cases hu
    | readDeadline c => rw [hp] at hu; cases hu
    | writing c x => rw [hp] at hu; cases hu
    | reading c => rw [hp] at hu; cases hu
  cases hl : s.lock with
  | none =>
    refine .inl fun u => ?_
    have hu : (s.pc u).inside = false := by
      cases hu : (s.pc u).inside with
      | false => rfl
      | true => rw [(hex u).1 hu] at hl; cases hl
    rcases outer u hu with h1 | ⟨d, h1⟩
    · exact h1
    · exact (not_blocked hb (.lock s u d h1 hl) (.locked d) rfl rfl (by simp [h1]) (by simp [h1])).elim
  | some t =>
    right
    obtain ⟨c, h1, h2, h3, h4, h5⟩ := inner t ((hex t).2 hl)
    refine ⟨t, c, h1, h2, ?_, h3, h4, h5, fun u hu => outer u ?_⟩
    · obtain ⟨x, hx⟩ := got_prefix hon h
      cases x with
      | nil => rw [← hx, List.append_nil]
      | cons b x =>
        exfalso
        refine hb _ ⟨.arrive s (b :: x) [] h3 h4 (by rw [List.append_nil]; exact hx.symm), ?_, ?_⟩ rfl
        · intro he
          have := congrArg (fun q : State T => q.got.length) he
          simp at this
        · rintro ⟨u, hu, hn⟩; exact hn hu
    · cases hi : (s.pc u).inside with
      | false => rfl
      | true =>
        have := (hex u).1 hi
        rw [hl] at this
        exact absurd (Option.some.inj this).symm hu

/-- **C68**: once the connection is closed, by this side or by the other, and likewise if `Timeout` is set and
deadlines do pass, nothing can keep a call from returning. -/
theorem C68_always (P : Params T) (hon : Online P.resp) (s : State T) (h : Reach P s) (hcr : s.crashed = false)
    (hend : s.isOpen = false ∨ s.ended = true ∨ P.timeout = true ∧ P.late = true) (hb : Blocked P s) : AllDone s := by
  rcases C68_stop P hon s h hcr hb with h1 | ⟨t, c, _, _, _, h2, h3, h4, _⟩
  · exact h1
  · rcases hend with e | e | e
    · rw [h2] at e; cases e
    · rw [h3] at e; cases e
    · exact absurd e h4

/-- **C68**: if no call, made after those that have returned, would be left waiting by the server, then on an
open connection the calls under way can only stop by all of them returning. -/
theorem C68_served (P : Params T) (hon : Online P.resp) (hc : ∀ c, P.calls c → ClientCall P.kind c)
    (s : State T) (h : Reach P s) (hcr : s.crashed = false)
    (hans : ∀ c, P.calls c → .err .io ∉ oneByOne P.resp [] [] (s.log.map (·.1) ++ [c]))
    (hb : Blocked P s) : AllDone s := by
  rcases C68_stop P hon s h hcr hb with h1 | ⟨t, c, hp, hio, hgot, ho, hen, hlate, _⟩
  · exact h1
  · exfalso
    rcases story hon (fun c h => (hc c h).reader) h with ⟨hf, _⟩ | ⟨_, _, _, _, _, _, _, ht, _⟩
    · obtain ⟨p, x, e1, e2, e3, e4, _⟩ := hf.data
      have hx : x = [] := by
        rw [hgot] at e2
        exact List.append_cancel_left ((List.append_nil _).trans e2).symm
      subst hx
      rw [List.append_nil] at e3
      have hw := e4 t c [] (by rw [hp]; rfl)
      rw [List.append_nil] at hw
      apply hans c (known h t c (by rw [hp]; rfl))
      rw [oneByOne_append]
      refine List.mem_append.2 (.inr ?_)
      simp only [oneByOne, hw, List.nil_append]
      rw [← hio, ← e3]
      exact List.mem_cons_self ..
    · rcases ht with e | e | e
      · rw [ho] at e; cases e
      · rw [hen] at e; cases e
      · exact hlate e

end Sched
end Verif
