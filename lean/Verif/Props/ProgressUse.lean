import Verif.Props.Progress
/-!
C68: calls on a shared connection to a memcached server, and to one that does not answer.
-/

namespace Verif
namespace Sched
open Spec
open Life (Kind errClosed errAlready)

variable {T : Type} [DecidableEq T]

theorem WorksOn.reach {P : Params T} {s s' : State T} (h : Reach P s) (hw : WorksOn P s s') : Reach P s' := by
  induction hw with
  | refl => exact h
  | step _ h1 _ ih => exact .step ih h1.1

theorem WorksOn.trans {P : Params T} {s s' s'' : State T} (h : WorksOn P s s') (h' : WorksOn P s' s'') : WorksOn P s s'' := by
  induction h' with
  | refl => exact h
  | step _ h1 h2 ih => exact .step ih h1 h2

theorem WorksOn.ended {P : Params T} {s s' : State T} (h : WorksOn P s s') : s'.ended = s.ended := by
  induction h with
  | refl => rfl
  | step _ _ h2 ih => exact h2.trans ih

/-- **C68**: from every state the calls under way can be carried on, without new calls and without the other side
hanging up, until they stop. -/
theorem C68_run_on (P : Params T) (s : State T) (h : Reach P s) : ∃ s', WorksOn P s s' ∧ Reach P s' ∧ Blocked P s' := by
  obtain ⟨ts, hts⟩ := among h
  generalize hm : measure P ts s = m
  induction m using less_wf.induction generalizing s with
  | h m ih =>
    by_cases hb : Blocked P s
    · exact ⟨s, .refl, h, hb⟩
    · unfold Blocked at hb
      obtain ⟨s', hw, he⟩ : ∃ s', Works P s s' ∧ s'.ended = s.ended := by
        apply Classical.byContradiction
        intro hn
        exact hb fun s' hw he => hn ⟨s', hw, he⟩
      obtain ⟨s'', h1, h2, h3⟩ := ih _ (hm ▸ works_measure hts hw) s' (.step h hw.1) (hts.works hw) rfl
      exact ⟨s'', WorksOn.trans (.step .refl hw he) h1, h2, h3⟩

/-! ## Nobody calls Close -/

/-- Where goroutines are when nobody calls Close. -/
structure Unclosed (s : State T) : Prop where
  raw : s.raw = true
  pc : ∀ t, s.pc t ≠ .close ∧ (s.pc t).closing = false
  fine : s.crashed = false
  isOpen : s.isOpen = true

theorem Unclosed.goto {s s' : State T} (h : Unclosed s) {t : T} {a : At} (hp : s'.pc = (s.goto t a).pc) (ha : a ≠ .close)
    (ha' : a.closing = false) (h1 : s'.raw = s.raw) (h2 : s'.crashed = s.crashed) (h3 : s'.isOpen = s.isOpen) : Unclosed s' := by
  refine ⟨h1 ▸ h.raw, fun u => ?_, h2 ▸ h.fine, h3 ▸ h.isOpen⟩
  rw [hp, goto_pc]
  by_cases hu : u = t
  · simp only [hu, if_true]; exact ⟨ha, ha'⟩
  · simp only [hu, if_false]; exact h.pc u

theorem unclosed {P : Params T} (hcl : ∀ t, ¬ P.closers t) {s : State T} (h : Reach P s) : Unclosed s := by
  induction h with
  | init => exact ⟨rfl, fun t => ⟨by simp [init], rfl⟩, rfl, rfl⟩
  | @step s s' _ hs ih =>
    have hraw := ih.raw
    have hfr : ∀ q : State T, q.pc = s.pc → q.raw = s.raw → q.crashed = s.crashed → q.isOpen = s.isOpen → Unclosed q :=
      fun q a b c d => ⟨b ▸ ih.raw, a ▸ ih.pc, c ▸ ih.fine, d ▸ ih.isOpen⟩
    have bad : ∀ {t}, s.pc t = .close ∨ (s.pc t).closing = true → Unclosed s' := by
      intro t hc
      rcases hc with hc | hc
      · exact absurd hc (ih.pc t).1
      · rw [(ih.pc t).2] at hc; cases hc
    cases hs with
    | call t c hp _ => exact ih.goto (t := t) (a := .called c) rfl (by simp) rfl rfl rfl rfl
    | lock t c hp _ => exact ih.goto (t := t) (a := .locked c) rfl (by simp) rfl rfl rfl rfl
    | refuse t c hp _ hr => rw [hraw] at hr; cases hr
    | pass t c hp _ => exact ih.goto (t := t) (a := .writeDeadline c) rfl (by simp) rfl rfl rfl rfl
    | writeDeadlineNil t c hp _ hr => rw [hraw] at hr; cases hr
    | writeDeadline t c hp _ _ => exact ih.goto (t := t) (a := .readDeadline c) rfl (by simp) rfl rfl rfl rfl
    | readDeadlineNil t c hp hr => rw [hraw] at hr; cases hr
    | readDeadline t c w hp _ _ => exact ih.goto (t := t) (a := .writing c w) rfl (by simp) rfl rfl rfl rfl
    | noDeadline t c w hp _ _ => exact ih.goto (t := t) (a := .writing c w) rfl (by simp) rfl rfl rfl rfl
    | unencodable t c e hp _ => exact ih.goto (t := t) (a := .idle) rfl (by simp) rfl rfl rfl rfl
    | unencodablePanic t c hp _ => exact ih.goto (t := t) (a := .idle) rfl (by simp) rfl rfl rfl rfl
    | write t c x y hp _ _ => exact ih.goto (t := t) (a := .writing c y) rfl (by simp) rfl rfl rfl rfl
    | writeFails t c x hp _ => exact ih.goto (t := t) (a := .idle) rfl (by simp) rfl rfl rfl rfl
    | written t c hp _ => exact ih.goto (t := t) (a := .reading c) rfl (by simp) rfl rfl rfl rfl
    | arrive x y _ _ _ => exact hfr _ rfl rfl rfl rfl
    | hangUp => exact hfr _ rfl rfl rfl rfl
    | read t c hp _ => exact ih.goto (t := t) (a := .idle) rfl (by simp) rfl rfl rfl rfl
    | readFails t c hp _ _ => exact ih.goto (t := t) (a := .idle) rfl (by simp) rfl rfl rfl rfl
    | readTimeout t c hp _ _ _ => exact ih.goto (t := t) (a := .idle) rfl (by simp) rfl rfl rfl rfl
    | callClose t hp hx => exact absurd hx (hcl t)
    | closeAgain t hp _ _ => exact bad (.inl hp)
    | closeGo t hp _ => exact bad (.inl hp)
    | closeRawNil t hp _ => exact bad (.inr (by rw [hp]; rfl))
    | closeRaw t hp _ => exact bad (.inr (by rw [hp]; rfl))
    | clearRaw t hp => exact bad (.inr (by rw [hp]; rfl))
    | closeChanPanic t hp _ => exact bad (.inr (by rw [hp]; rfl))
    | closeChan t hp _ _ => exact bad (.inr (by rw [hp]; rfl))
    | clearChan t hp => exact bad (.inr (by rw [hp]; rfl))

/-! ## memcached -/

theorem counted_not_io (r : Kv.Counted) : counted r ≠ .err .io := by
  unfold counted
  repeat' split
  all_goals simp

theorem textApi_not_io (name : Bytes) (s : Kv.Store) (op : Op) : (textApi name s op).1 ≠ .err .io := by
  cases op <;> simp only [textApi, arithApi] <;> repeat' split
  all_goals first | exact counted_not_io _ | simp

theorem metaApi_not_io (s : Kv.Store) (op : Op) : (metaApi s op).1 ≠ .err .io := by
  cases op <;> simp only [metaApi, arithApi] <;> repeat' split
  all_goals first | exact counted_not_io _ | simp

theorem runApi_not_io {api : Kv.Store → Op → Res Out × Kv.Store} (h : ∀ s op, (api s op).1 ≠ .err .io) :
    ∀ (evs : List Event) (s : Kv.Store), .err .io ∉ (runApi api s evs).1 := by
  intro evs
  induction evs with
  | nil => intro s hm; cases hm
  | cons ev evs ih =>
    obtain ⟨d, op⟩ := ev
    intro s hm
    simp only [runApi] at hm
    rcases List.mem_cons.1 hm with hm | hm
    · exact h _ _ hm.symm
    · exact ih _ hm

open Kv in
/-- **C68**, a text connection to a memcached server: with no deadline and nobody closing the connection, the calls
under way cannot stop before all of them have returned. -/
theorem C68_memcached_text (P : Params T) (name : Bytes) (store : Store) (hs : GoodStore store)
    (hk : P.kind = .text) (hp : P.resp = Mc.output store) (hcl : ∀ t, ¬ P.closers t)
    (hc : ∀ c, P.calls c → ∃ op, GoodOp op ∧ c = Mc.textCall name op)
    (s : State T) (h : Reach P s) (hcas : store.nextCas + s.log.length + 1 < 2 ^ 63) (hb : Blocked P s) : AllDone s := by
  refine C68_served P (hp ▸ Mc.output_online store)
    (fun c hcc => by obtain ⟨op, _, rfl⟩ := hc c hcc; rw [hk]; exact .text name op) s h (unclosed hcl h).fine ?_ hb
  intro c hcc
  obtain ⟨ops, hops, hlog⟩ := ops_of_calls (Q := GoodOp) (call := Mc.textCall name) (s.log.map (·.1) ++ [c]) (by
    intro d hd
    rcases List.mem_append.1 hd with hd | hd
    · obtain ⟨e, he, rfl⟩ := List.mem_map.1 hd
      exact hc e.1 (log_known h e he)
    · rw [List.mem_singleton.1 hd]; exact hc c hcc)
  have hlen : ops.length = s.log.length + 1 := by
    have := congrArg List.length hlog
    simpa using this.symm
  have hh := Props.C52_text_history name (ops.map fun o => (0, o)) store
    (by intro ev hev; obtain ⟨o, ho, rfl⟩ := List.mem_map.1 hev; exact hops o ho) hs (by simp only [List.length_map, hlen]; omega)
  rw [hlog, hp, Mc.oneByOne_session (Mc.textCall name) store ops store _ [] _
    (by intro x; rw [List.nil_append]; rfl) hh]
  exact runApi_not_io (textApi_not_io name) _ _

open Kv in
/-- **C68**, a meta connection to a memcached server (operations as in C52). -/
theorem C68_memcached_meta (P : Params T) (store : Store) (hs : GoodMetaStore store)
    (hk : P.kind = .metap) (hp : P.resp = Mc.output store) (hcl : ∀ t, ¬ P.closers t)
    (hc : ∀ c, P.calls c → ∃ op, (∀ s, GoodMetaOp s op) ∧ c = Mc.metaCall op)
    (s : State T) (h : Reach P s) (hcas : store.nextCas + s.log.length + 1 < 2 ^ 63) (hb : Blocked P s) : AllDone s := by
  refine C68_served P (hp ▸ Mc.output_online store)
    (fun c hcc => by obtain ⟨op, _, rfl⟩ := hc c hcc; rw [hk]; exact .metap op) s h (unclosed hcl h).fine ?_ hb
  intro c hcc
  obtain ⟨ops, hops, hlog⟩ := ops_of_calls (Q := fun op => ∀ s, GoodMetaOp s op) (call := Mc.metaCall)
    (s.log.map (·.1) ++ [c]) (by
    intro d hd
    rcases List.mem_append.1 hd with hd | hd
    · obtain ⟨e, he, rfl⟩ := List.mem_map.1 hd
      exact hc e.1 (log_known h e he)
    · rw [List.mem_singleton.1 hd]; exact hc c hcc)
  have hlen : ops.length = s.log.length + 1 := by
    have := congrArg List.length hlog
    simpa using this.symm
  have hh := Props.C52_meta_history (ops.map fun o => (0, o)) store hs
    (along_of_all _ _ (by intro ev hev; obtain ⟨o, ho, rfl⟩ := List.mem_map.1 hev; exact hops o ho))
    (by simp only [List.length_map, hlen]; omega)
  rw [hlog, hp, Mc.oneByOne_session Mc.metaCall store ops store _ [] _
    (by intro x; rw [List.nil_append]; rfl) hh]
  exact runApi_not_io metaApi_not_io _ _

/-! ## A server that does not answer -/

/-- One goroutine waits for a reply, another for the first. -/
def waiting (t u : T) (c d : Call Out) (w : Bytes) : State T :=
  { lock := some t, sent := w, pc := fun v => if v = t then .reading c else if v = u then .called d else .idle }

/-- **C68**: without `Timeout`, a server that accepts the request and stays silent keeps the caller, and everybody
else who uses the connection, waiting for ever. -/
theorem C68_silent (P : Params T) (hresp : P.resp = fun _ => []) (hto : P.timeout = false) (t u : T) (htu : u ≠ t)
    (c d : Call Out) (w : Bytes) (hc : P.calls c) (hcc : ClientCall P.kind c) (hd : P.calls d) (hw : c.wire = .ok w) :
    ∃ s, Reach P s ∧ Blocked P s ∧ s.pc t = .reading c ∧ s.pc u = .called d ∧ s.log = [] ∧ s.isOpen = true ∧
      s.ended = false := by
  have hrd : (c.rd []).1 = .err .io := by rw [hcc.reader.2]
  refine ⟨waiting t u c d w, ?_, ?_, by simp [waiting], by simp [waiting, htu], rfl, rfl, rfl⟩
  · have h1 := Reach.step .init (Step.call (P := P) init t c rfl hc)
    have h2 := Reach.step h1 (.lock _ t c (by simp [goto_pc]) rfl)
    have h3 := Reach.step h2 (.pass _ t c (by simp [goto_pc]) (fun _ => rfl))
    have h4 := Reach.step h3 (.noDeadline _ t c w (by simp [goto_pc]) hto hw)
    have h5 := Reach.step h4 (.write _ t c w [] (by simp [goto_pc]) rfl rfl)
    have h6 := Reach.step h5 (.written _ t c (by simp [goto_pc]) rfl)
    have h7 := Reach.step h6 (.call _ u d (by simp [State.goto, init, htu]) hd)
    refine (?_ : _ = waiting t u c d w) ▸ h7
    simp only [State.goto, init, waiting, State.mk.injEq, List.nil_append, true_and, and_true]
    funext v
    by_cases hv : v = t
    · subst hv; simp [Ne.symm htu]
    · by_cases hv' : v = u
      · subst hv'; simp [hv]
      · simp [hv, hv']
  · rintro s' ⟨hs, hne, hst⟩
    have hpc : ∀ v a, (waiting t u c d w).pc v = a → a ≠ .idle → (v = t ∧ a = .reading c) ∨ (v = u ∧ a = .called d) := by
      intro v a ha hn
      simp only [waiting] at ha
      by_cases hv : v = t
      · simp only [hv, if_true] at ha; exact .inl ⟨hv, ha.symm⟩
      · by_cases hv' : v = u
        · simp only [hv', htu, if_true, if_false] at ha; exact .inr ⟨hv', ha.symm⟩
        · simp only [hv, hv', if_false] at ha; exact absurd ha.symm hn
    have no : ∀ v a, (waiting t u c d w).pc v = a → a ≠ .idle → (∀ e, a ≠ .reading e) → (∀ e, a ≠ .called e) → False := by
      intro v a ha hn h1 h2
      rcases hpc v a ha hn with ⟨_, h⟩ | ⟨_, h⟩
      · exact h1 _ h
      · exact h2 _ h
    have rd : ∀ v e, (waiting t u c d w).pc v = .reading e → e = c := by
      intro v e he
      rcases hpc v _ he (by simp) with ⟨_, h⟩ | ⟨_, h⟩
      · exact At.reading.inj h
      · cases h
    cases hs with
    | call v e hp _ => exact absurd ⟨v, hp, by simp [goto_pc]⟩ hst
    | callClose v hp _ => exact absurd ⟨v, hp, by simp [goto_pc]⟩ hst
    | lock v e hp hl => cases hl
    | refuse v e hp _ _ => exact (no v _ hp (by simp) (by simp) (by simp)).elim
    | pass v e hp _ => exact (no v _ hp (by simp) (by simp) (by simp)).elim
    | writeDeadlineNil v e hp _ _ => exact (no v _ hp (by simp) (by simp) (by simp)).elim
    | writeDeadline v e hp _ _ => exact (no v _ hp (by simp) (by simp) (by simp)).elim
    | readDeadlineNil v e hp _ => exact (no v _ hp (by simp) (by simp) (by simp)).elim
    | readDeadline v e w' hp _ _ => exact (no v _ hp (by simp) (by simp) (by simp)).elim
    | noDeadline v e w' hp _ _ => exact (no v _ hp (by simp) (by simp) (by simp)).elim
    | unencodable v e x hp _ =>
      rcases hp with ⟨hp, _⟩ | ⟨hp, _⟩ <;> exact (no v _ hp (by simp) (by simp) (by simp)).elim
    | unencodablePanic v e hp _ =>
      rcases hp with ⟨hp, _⟩ | ⟨hp, _⟩ <;> exact (no v _ hp (by simp) (by simp) (by simp)).elim
    | write v e x y hp _ _ => exact (no v _ hp (by simp) (by simp) (by simp)).elim
    | writeFails v e x hp _ => exact (no v _ hp (by simp) (by simp) (by simp)).elim
    | written v e hp _ => exact (no v _ hp (by simp) (by simp) (by simp)).elim
    | arrive x y _ _ hx =>
      exfalso
      rw [hresp] at hx
      have hx0 : x = [] := by
        have := congrArg List.length hx
        simp only [List.length_nil, List.length_append] at this
        exact List.length_eq_zero_iff.1 (by omega)
      subst hx0
      exact hne (by simp [waiting])
    | hangUp => intro he; cases he
    | read v e hp hio => rw [rd v e hp] at hio; exact absurd hrd hio
    | readFails v e hp _ hx => rcases hx with hx | hx <;> cases hx
    | readTimeout v e hp _ h1 _ => rw [hto] at h1; cases h1
    | closeAgain v hp _ _ => exact (no v _ hp (by simp) (by simp) (by simp)).elim
    | closeGo v hp _ => exact (no v _ hp (by simp) (by simp) (by simp)).elim
    | closeRawNil v hp _ => exact (no v _ hp (by simp) (by simp) (by simp)).elim
    | closeRaw v hp _ => exact (no v _ hp (by simp) (by simp) (by simp)).elim
    | clearRaw v hp => exact (no v _ hp (by simp) (by simp) (by simp)).elim
    | closeChanPanic v hp _ => exact (no v _ hp (by simp) (by simp) (by simp)).elim
    | closeChan v hp _ _ => exact (no v _ hp (by simp) (by simp) (by simp)).elim
    | clearChan v hp => exact (no v _ hp (by simp) (by simp) (by simp)).elim

/-- Many goroutines use a text connection to a memcached server, and nobody closes it. -/
def talk (T : Type) : Params T where
  kind := .text
  timeout := false
  late := false
  resp := Mc.output (Props.emptyStore 0)
  calls := fun c => ∃ op, GoodOp op ∧ c = Mc.textCall b!"a" op
  closers := fun _ => False

/-- **C68**, concretely: any number of goroutines have called Get and Set on one text connection to a memcached
server; there is a continuation in which all calls return, and no run without new calls stops earlier. -/
theorem C68_concrete (s : State Nat) (h : Reach (talk Nat) s) (hn : s.log.length < 1000000)
    : (∃ s', WorksOn (talk Nat) s s' ∧ Blocked (talk Nat) s') ∧
      (Blocked (talk Nat) s → AllDone s) ∧
      ∃ s0 : State Nat, Reach (talk Nat) s0 ∧ s0.log.length < 1000000 ∧ ¬ AllDone s0 := by
  refine ⟨?_, ?_, ?_⟩
  · obtain ⟨s', h1, _, h2⟩ := C68_run_on _ s h; exact ⟨s', h1, h2⟩
  · exact C68_memcached_text (talk Nat) b!"a" (Props.emptyStore 0) (Props.emptyStore_good 0) rfl rfl (fun _ hh => hh)
      (fun c hc => hc) s h (by show 1 + s.log.length + 1 < 2 ^ 63; omega)
  · refine ⟨_, .step .init (.call init 3 (Mc.textCall b!"a" (.get b!"k")) rfl ⟨_, ?_, rfl⟩), by decide, fun hd => ?_⟩
    · exact (by decide : Key b!"k")
    · have := hd 3
      simp [goto_pc] at this

end Sched
end Verif
