import Verif.Props.ReconnUse
/-!
C71: a meta or binary client whose connection was closed is of no use any more; not even Reconnect helps.
-/

namespace Verif
namespace Reconn
open Spec
open Life (Kind errClosed errAlready)
open Sched (ClientCall)

variable {T : Type} [DecidableEq T]

theorem bindOk_ne {α : Type} (r : Res α) (f : α → Bytes) (hf : ∀ a, f a ≠ []) :
    (r >>= fun a => (pure (f a) : Res Bytes)) ≠ .ok [] := by
  cases r with
  | ok a => intro h; injection h with h; exact hf a h
  | err e => intro h; cases h
  | panic => intro h; cases h

/-- Every request has at least one byte. -/
theorem _root_.Verif.Sched.ClientCall.wire_ne {k : Kind} {c : Call Out} (h : ClientCall k c) : c.wire ≠ .ok [] := by
  have henc : ∀ q : Bin.ReqHdr, q.encode ≠ [] := fun q => by simp [Bin.ReqHdr.encode]
  have hst : ∀ h op i, Bin.storeWire h op i ≠ .ok [] := by
    intro h op i
    refine bindOk_ne _ _ fun a => ?_
    intro hh
    have := henc (Bin.storeHdr h op i)
    simp_all
  have hok : ∀ x : Bytes, x ≠ [] → (Res.ok x : Res Bytes) ≠ .ok [] := by
    intro x hx hh; injection hh with hh; exact hx hh
  cases h with
  | text name op =>
    cases op with
    | set i =>
      refine hok _ fun hh => ?_
      have : Text.setWire i = [] := hh
      simp [Text.setWire, show crlf ≠ [] by decide] at this
    | _ => exact hok _ (by simp [Text.storeWire, Text.incrOrDecr]; try decide)
  | textVersion => exact hok _ (by decide)
  | metap op =>
    cases op with
    | set i =>
      intro hh
      have : Meta.setWire i = .ok [] := hh
      unfold Meta.setWire at this
      cases hf : i.flags with
      | none =>
        rw [hf] at this
        injection this with this
        simp at this
      | some fl =>
        rw [hf] at this
        cases hb : beUint 4 fl with
        | ok n =>
          simp only [hb] at this
          injection this with this
          simp at this
        | err e => simp only [hb] at this; cases this
        | panic => simp only [hb] at this; cases this
    | get k => exact hok _ (by simp)
    | getMulti ks => exact hok _ (by simp)
    | add i => exact hok _ (by simp [Text.storeWire])
    | replace i => exact hok _ (by simp [Text.storeWire])
    | delete k => exact hok _ (by simp)
    | increment k d e => exact hok _ (by simp [Meta.incrOrDecr])
    | decrement k d e => exact hok _ (by simp [Meta.incrOrDecr])
    | touch k e => exact hok _ (by simp)
    | flush => exact hok _ (by decide)
  | metaVersion => exact hok _ (by decide)
  | binary h1 h2 op =>
    cases op with
    | set i => exact hst _ _ _
    | add i => exact hst _ _ _
    | replace i => exact hst _ _ _
    | get k => exact hok _ (fun hh => henc _ (List.append_eq_nil_iff.1 hh).1)
    | getMulti ks => exact hok _ (fun hh => henc _ (List.append_eq_nil_iff.1 hh).2)
    | delete k => exact hok _ (fun hh => henc _ (List.append_eq_nil_iff.1 hh).1)
    | increment k d e => exact hok _ (fun hh => henc _ (List.append_eq_nil_iff.1 (List.append_eq_nil_iff.1 hh).1).1)
    | decrement k d e => exact hok _ (fun hh => henc _ (List.append_eq_nil_iff.1 (List.append_eq_nil_iff.1 hh).1).1)
    | touch k e => exact hok _ (fun hh => henc _ (List.append_eq_nil_iff.1 (List.append_eq_nil_iff.1 hh).1).1)
    | flush => exact hok _ (henc _)
  | binaryVersion h => exact hok _ (henc _)

/-! ## Without Close of a text client, `s.raw` is the connection in use, unless a Reconnect is about to end -/

/-- A step that only Close of a text client takes is next. -/
def At.textOnly : At → Bool
  | .user .clearRaw | .user .closeChan | .user .clearChan => true
  | _ => false

structure NotText (s : State T) : Prop where
  pc : ∀ t, (s.pc t).textOnly = false
  chan : s.chanClosed = false
  placed : ∀ t g, (s.pc t).placed = some g → s.raw = some g
  inUse : (∀ t, (s.pc t).placed = none) → s.raw = some s.conn

theorem NotText.keep {s s' : State T} (h : NotText s) {t : T} {a : At} (hp : s'.pc = (s.goto t a).pc)
    (h0 : a.textOnly = false) (h1 : a.placed = (s.pc t).placed) (hc : s'.chanClosed = s.chanClosed)
    (h3 : s'.raw = s.raw) (h4 : s'.conn = s.conn) : NotText s' := by
  have hpc : ∀ u, s'.pc u = if u = t then a else s.pc u := fun u => by rw [hp, goto_pc]
  have hpl : ∀ u, (s'.pc u).placed = (s.pc u).placed := by
    intro u
    rw [hpc]
    by_cases hu : u = t
    · simp only [hu, if_true]; exact h1
    · simp only [hu, if_false]
  refine ⟨fun u => ?_, hc.trans h.chan, fun u g hu => ?_, fun hn => ?_⟩
  · rw [hpc]
    by_cases hu : u = t
    · simp only [hu, if_true]; exact h0
    · simp only [hu, if_false]; exact h.pc u
  · rw [h3]; exact h.placed u g (hpl u ▸ hu)
  · rw [h3, h4]; exact h.inUse fun u => (hpl u).symm.trans (hn u)

theorem notText_step {P : Params T} (hk : P.kind ≠ .text) {s s' : State T} (he : Excl s) (h : NotText s)
    (hs : Step P s s') : NotText s' := by
  have bad : ∀ {t}, (s.pc t).textOnly = true → NotText s' := by
    intro t hc; rw [h.pc t] at hc; cases hc
  have hone : ∀ {t}, (s.pc t).inside = true → ∀ u, u ≠ t → (s.pc u).placed = none := by
    intro t ht u hut
    cases hu : (s.pc u).placed with
    | none => rfl
    | some g => exact absurd (he.one (t := t) ht (At.inside_of_past (At.past_of_placed hu))) hut
  cases hs with
  | call t c hp _ => exact h.keep (t := t) (a := .user (.called c)) rfl rfl (by rw [hp]; rfl) rfl rfl rfl
  | lock t c hp hl => exact h.keep (t := t) (a := .user (.locked c)) rfl rfl (by rw [hp]; rfl) rfl rfl rfl
  | refuse t c hp _ _ => exact h.keep (t := t) (a := .user .idle) rfl rfl (by rw [hp]; rfl) rfl rfl rfl
  | pass t c hp _ => exact h.keep (t := t) (a := .user (.writeDeadline c)) rfl rfl (by rw [hp]; rfl) rfl rfl rfl
  | writeDeadlineNil t c hp _ _ => exact ⟨h.pc, h.chan, h.placed, h.inUse⟩
  | writeDeadline t c hp _ _ => exact h.keep (t := t) (a := .user (.readDeadline c)) rfl rfl (by rw [hp]; rfl) rfl rfl rfl
  | readDeadlineNil t c hp _ => exact ⟨h.pc, h.chan, h.placed, h.inUse⟩
  | readDeadline t c w hp _ _ => exact h.keep (t := t) (a := .user (.writing c w)) rfl rfl (by rw [hp]; rfl) rfl rfl rfl
  | noDeadline t c w hp _ _ => exact h.keep (t := t) (a := .user (.writing c w)) rfl rfl (by rw [hp]; rfl) rfl rfl rfl
  | unencodable t c e hp _ =>
    exact h.keep (t := t) (a := .user .idle) rfl rfl (by rcases hp with ⟨hp, _⟩ | ⟨hp, _⟩ <;> rw [hp] <;> rfl) rfl rfl rfl
  | unencodablePanic t c hp _ =>
    exact h.keep (t := t) (a := .user .idle) rfl rfl (by rcases hp with ⟨hp, _⟩ | ⟨hp, _⟩ <;> rw [hp] <;> rfl) rfl rfl rfl
  | write t c x y hp _ _ => exact h.keep (t := t) (a := .user (.writing c y)) rfl rfl (by rw [hp]; rfl) rfl rfl rfl
  | writeFails t c x hp _ => exact h.keep (t := t) (a := .user .idle) rfl rfl (by rw [hp]; rfl) rfl rfl rfl
  | written t c hp _ => exact h.keep (t := t) (a := .user (.reading c)) rfl rfl (by rw [hp]; rfl) rfl rfl rfl
  | arrive g x y _ _ _ _ => exact ⟨h.pc, h.chan, h.placed, h.inUse⟩
  | hangUp g _ => exact ⟨h.pc, h.chan, h.placed, h.inUse⟩
  | read t c hp _ => exact h.keep (t := t) (a := .user .idle) rfl rfl (by rw [hp]; rfl) rfl rfl rfl
  | readFails t c hp _ _ => exact h.keep (t := t) (a := .user .idle) rfl rfl (by rw [hp]; rfl) rfl rfl rfl
  | readTimeout t c hp _ _ _ => exact h.keep (t := t) (a := .user .idle) rfl rfl (by rw [hp]; rfl) rfl rfl rfl
  | callClose t hp hx => exact h.keep (t := t) (a := .user .close) rfl rfl (by rw [hp]; rfl) rfl rfl rfl
  | closeAgain t hp hx _ => exact absurd hx hk
  | closeGo t hp _ => exact h.keep (t := t) (a := .user .closeRaw) rfl rfl (by rw [hp]; rfl) rfl rfl rfl
  | closeRawNil t hp _ => exact ⟨h.pc, h.chan, h.placed, h.inUse⟩
  | closeRaw t g hp _ =>
    rw [if_neg hk]
    exact h.keep (t := t) (a := .user .idle) rfl rfl (by rw [hp]; rfl) rfl rfl rfl
  | clearRaw t hp => exact bad (t := t) (by rw [hp]; rfl)
  | closeChanPanic t hp _ => exact bad (t := t) (by rw [hp]; rfl)
  | closeChan t hp _ _ => exact bad (t := t) (by rw [hp]; rfl)
  | clearChan t hp => exact bad (t := t) (by rw [hp]; rfl)
  | callReconnect t hp _ => exact h.keep (t := t) (a := .called) rfl rfl (by rw [hp]; rfl) rfl rfl rfl
  | lockReconnect t hp hl => exact h.keep (t := t) (a := .locked) rfl rfl (by rw [hp]; rfl) rfl rfl rfl
  | shutFails t g hp _ _ => exact h.keep (t := t) (a := .user .idle) rfl rfl (by rw [hp]; rfl) rfl rfl rfl
  | dialFails t hp => exact h.keep (t := t) (a := .user .idle) rfl rfl (by rw [hp]; rfl) rfl rfl rfl
  | dial t hp => exact h.keep (t := t) (a := .setRaw s.dialled) rfl rfl (by rw [hp]; rfl) rfl rfl rfl
  | noRaw t hp hr => exact h.keep (t := t) (a := .dial) rfl rfl (by rw [hp]; rfl) rfl rfl rfl
  | shut t g hp hr ho => exact h.keep (t := t) (a := .dial) rfl rfl (by rw [hp]; rfl) rfl rfl rfl
  | setRaw t g hp =>
    have hpc : ∀ u, ((s.goto t (.setConn g)).pc u) = if u = t then .setConn g else s.pc u := fun u => rfl
    have hq := hone (t := t) (by rw [hp]; rfl)
    refine ⟨fun u => ?_, h.chan, fun u k hu => ?_, fun hn => ?_⟩
    · show ((s.goto t (.setConn g)).pc u).textOnly = false
      rw [hpc]; split
      · rfl
      · exact h.pc u
    · replace hu : ((s.goto t (.setConn g)).pc u).placed = some k := hu
      show some g = some k
      rw [hpc] at hu
      by_cases hut : u = t
      · simp only [hut, if_true, At.placed] at hu; exact hu
      · simp only [hut, if_false] at hu; rw [hq u hut] at hu; cases hu
    · have := hn t
      rw [show ({ s.goto t (.setConn g) with raw := some g } : State T).pc t = (s.goto t (.setConn g)).pc t from rfl, hpc, if_pos rfl] at this
      cases this
  | setConn t g hp =>
    have hpc : ∀ u, ((s.goto t (.user .idle)).pc u) = if u = t then .user .idle else s.pc u := fun u => rfl
    have hq := hone (t := t) (by rw [hp]; rfl)
    refine ⟨fun u => ?_, h.chan, fun u k hu => ?_, fun _ => ?_⟩
    · show ((s.goto t (.user .idle)).pc u).textOnly = false
      rw [hpc]; split
      · rfl
      · exact h.pc u
    · replace hu : ((s.goto t (.user .idle)).pc u).placed = some k := hu
      rw [hpc] at hu
      by_cases hut : u = t
      · simp only [hut, if_true] at hu; cases hu
      · simp only [hut, if_false] at hu; rw [hq u hut] at hu; cases hu
    · exact h.placed t g (by rw [hp]; rfl)

theorem notText {P : Params T} (hk : P.kind ≠ .text) {s : State T} (h : Reach P s) : NotText s := by
  induction h with
  | init => exact ⟨fun _ => rfl, rfl, fun _ _ hh => (by cases hh), fun _ => rfl⟩
  | step hr hs ih => exact notText_step hk (excl hr) ih hs

/-! ## A closed connection -/

/-- Nothing that is under way can still succeed. -/
def At.hopeless : At → Prop
  | .user (.writing _ w) => w ≠ []
  | .user (.reading _) | .dial | .setRaw _ | .setConn _ | .user .clearRaw | .user .closeChan | .user .clearChan => False
  | _ => True

structure Shut (P : Params T) (s : State T) : Prop where
  raw : s.raw = some s.conn
  isOpen : (s.conns s.conn).isOpen = false
  pc : ∀ t, (s.pc t).hopeless
  known : Known P s

theorem Shut.keep {P : Params T} {s s' : State T} (h : Shut P s) (hkn : Known P s') {t : T} {a : At}
    (hp : s'.pc = (s.goto t a).pc) (h0 : a.hopeless) (h3 : s'.raw = s.raw) (h4 : s'.conn = s.conn)
    (h5 : (s'.conns s.conn).isOpen = false) : Shut P s' := by
  refine ⟨by rw [h3, h4]; exact h.raw, by rw [h4]; exact h5, fun u => ?_, hkn⟩
  rw [hp, goto_pc]
  split
  · exact h0
  · exact h.pc u

/-- What has been said since. -/
def Grew (s s' : State T) : Prop := s'.log = s.log ∨ ∃ e, s'.log = s.log ++ [e] ∧ Failed e

theorem shut_step {P : Params T} (hk : P.kind ≠ .text) (hw : ∀ c, P.calls c → c.wire ≠ .ok []) {s s' : State T}
    (h : Shut P s) (hs : Step P s s') : (Shut P s' ∧ s'.conn = s.conn) ∧ Grew s s' := by
  have hkn := known_step h.known hs
  have hcur : s.cur.isOpen = false := h.isOpen
  have bad : ∀ {t}, ¬ (s.pc t).hopeless → (Shut P s' ∧ s'.conn = s.conn) ∧ Grew s s' := fun {t} hc => absurd (h.pc t) hc
  have hset : ∀ (q : State T) (g : Nat) (c : Conn), (q.conns s.conn).isOpen = false → (g = s.conn → c.isOpen = false) →
      ((q.setConn g c).conns s.conn).isOpen = false := by
    intro q g c hq hc
    show (if s.conn = g then c else q.conns s.conn).isOpen = _
    split
    · rename_i hk; exact hc hk.symm
    · exact hq
  have hwire : ∀ t c w, (s.pc t).ofOp.op = some c → c.wire = .ok w → w ≠ [] := by
    intro t c w ho hcw hn
    subst hn
    exact hw c (h.known t c ho) hcw
  cases hs with
  | call t c hp _ => exact ⟨⟨h.keep hkn (t := t) (a := .user (.called c)) rfl trivial rfl rfl h.isOpen, rfl⟩, .inl rfl⟩
  | lock t c hp hl => exact ⟨⟨h.keep hkn (t := t) (a := .user (.locked c)) rfl trivial rfl rfl h.isOpen, rfl⟩, .inl rfl⟩
  | refuse t c hp hx _ => exact absurd hx hk
  | pass t c hp _ => exact ⟨⟨h.keep hkn (t := t) (a := .user (.writeDeadline c)) rfl trivial rfl rfl h.isOpen, rfl⟩, .inl rfl⟩
  | writeDeadlineNil t c hp _ hr => rw [h.raw] at hr; cases hr
  | writeDeadline t c hp _ _ => exact ⟨⟨h.keep hkn (t := t) (a := .user (.readDeadline c)) rfl trivial rfl rfl h.isOpen, rfl⟩, .inl rfl⟩
  | readDeadlineNil t c hp hr => rw [h.raw] at hr; cases hr
  | readDeadline t c w hp _ hcw =>
    exact ⟨⟨h.keep hkn (t := t) (a := .user (.writing c w)) rfl (hwire t c w (by rw [hp]; rfl) hcw) rfl rfl h.isOpen, rfl⟩, .inl rfl⟩
  | noDeadline t c w hp _ hcw =>
    exact ⟨⟨h.keep hkn (t := t) (a := .user (.writing c w)) rfl (hwire t c w (by rw [hp]; rfl) hcw) rfl rfl h.isOpen, rfl⟩, .inl rfl⟩
  | unencodable t c e hp _ =>
    exact ⟨⟨h.keep hkn (t := t) (a := .user .idle) rfl trivial rfl rfl h.isOpen, rfl⟩, .inr ⟨_, rfl, trivial⟩⟩
  | unencodablePanic t c hp _ =>
    exact ⟨⟨h.keep hkn (t := t) (a := .user .idle) rfl trivial rfl rfl h.isOpen, rfl⟩, .inr ⟨_, rfl, trivial⟩⟩
  | write t c x y hp ho _ => rw [hcur] at ho; cases ho
  | writeFails t c x hp _ =>
    exact ⟨⟨h.keep hkn (t := t) (a := .user .idle) rfl trivial rfl rfl (hset _ _ _ h.isOpen fun _ => h.isOpen), rfl⟩,
      .inr ⟨_, rfl, trivial⟩⟩
  | written t c hp _ => exact bad (t := t) (by rw [hp]; intro hh; exact hh rfl)
  | arrive g x y _ ho _ _ =>
    exact ⟨⟨⟨h.raw, hset s g { s.conns g with got := (s.conns g).got ++ x, inbox := (s.conns g).inbox ++ x } h.isOpen
      (by intro hh; subst hh; exact h.isOpen), h.pc, hkn⟩, rfl⟩, .inl rfl⟩
  | hangUp g _ =>
    exact ⟨⟨⟨h.raw, hset s g { s.conns g with ended := true } h.isOpen (by intro hh; subst hh; exact h.isOpen), h.pc, hkn⟩, rfl⟩, .inl rfl⟩
  | read t c hp _ => exact bad (t := t) (by rw [hp]; exact id)
  | readFails t c hp _ _ => exact bad (t := t) (by rw [hp]; exact id)
  | readTimeout t c hp _ _ _ => exact bad (t := t) (by rw [hp]; exact id)
  | callClose t hp hx => exact ⟨⟨h.keep hkn (t := t) (a := .user .close) rfl trivial rfl rfl h.isOpen, rfl⟩, .inl rfl⟩
  | closeAgain t hp hx _ => exact absurd hx hk
  | closeGo t hp _ => exact ⟨⟨h.keep hkn (t := t) (a := .user .closeRaw) rfl trivial rfl rfl h.isOpen, rfl⟩, .inl rfl⟩
  | closeRawNil t hp hr => rw [h.raw] at hr; cases hr
  | closeRaw t g hp _ =>
    refine ⟨⟨h.keep hkn (t := t) (a := .user (if P.kind = .text then .clearRaw else .idle)) rfl ?_ rfl rfl
      (hset _ _ _ h.isOpen fun _ => rfl), rfl⟩, .inl rfl⟩
    rw [if_neg hk]; trivial
  | clearRaw t hp => exact bad (t := t) (by rw [hp]; exact id)
  | closeChanPanic t hp _ => exact bad (t := t) (by rw [hp]; exact id)
  | closeChan t hp _ _ => exact bad (t := t) (by rw [hp]; exact id)
  | clearChan t hp => exact bad (t := t) (by rw [hp]; exact id)
  | callReconnect t hp _ => exact ⟨⟨h.keep hkn (t := t) (a := .called) rfl trivial rfl rfl h.isOpen, rfl⟩, .inl rfl⟩
  | lockReconnect t hp hl => exact ⟨⟨h.keep hkn (t := t) (a := .locked) rfl trivial rfl rfl h.isOpen, rfl⟩, .inl rfl⟩
  | shutFails t g hp _ _ =>
    exact ⟨⟨h.keep hkn (t := t) (a := .user .idle) rfl trivial rfl rfl h.isOpen, rfl⟩, .inr ⟨_, rfl, rfl⟩⟩
  | dialFails t hp => exact bad (t := t) (by rw [hp]; exact id)
  | dial t hp => exact bad (t := t) (by rw [hp]; exact id)
  | noRaw t hp hr => rw [h.raw] at hr; cases hr
  | shut t g hp hr ho =>
    rw [h.raw] at hr
    rw [← Option.some.inj hr, h.isOpen] at ho; cases ho
  | setRaw t g hp => exact bad (t := t) (by rw [hp]; exact id)
  | setConn t g hp => exact bad (t := t) (by rw [hp]; exact id)

theorem shut_of_free {P : Params T} (hk : P.kind ≠ .text) {s : State T} (h : Reach P s)
    (hl : s.lock = none) (ho : (s.conns s.conn).isOpen = false) : Shut P s := by
  have hi : ∀ t, (s.pc t).inside = false := by
    intro t
    cases hh : (s.pc t).inside with
    | false => rfl
    | true => rw [(excl h t).1 hh] at hl; cases hl
  have hn := notText hk h
  refine ⟨hn.inUse fun t => ?_, ho, fun t => ?_, known h⟩
  · cases hu : (s.pc t).placed with
    | none => rfl
    | some g => have := At.inside_of_past (At.past_of_placed hu); rw [hi t] at this; cases this
  · have h1 := hi t
    have h2 := hn.pc t
    revert h1 h2
    cases s.pc t with
    | user a => cases a <;> simp [At.inside, At.textOnly, At.hopeless, Sched.At.inside]
    | _ => simp [At.inside, At.hopeless]

/-- **C71**: a meta or binary client whose connection has been closed — by a goroutine of the program, or by its
heartbeat — stays useless for ever, whatever its goroutines do: once nobody is inside an operation, no operation
succeeds any more and neither does a Reconnect. -/
theorem C71_shut_for_good (P : Params T) (hk : P.kind ≠ .text) (hc : ∀ c, P.calls c → ClientCall P.kind c) (s : State T)
    (h : Reach P s) (hl : s.lock = none) (ho : (s.conns s.conn).isOpen = false) (s' : State T) (hs : Later P s s') :
    (s'.conns s'.conn).isOpen = false ∧ ∃ new, s'.log = s.log ++ new ∧ ∀ e ∈ new, Failed e := by
  suffices hh : Shut P s' ∧ ∃ new, s'.log = s.log ++ new ∧ ∀ e ∈ new, Failed e from ⟨hh.1.isOpen, hh.2⟩
  induction hs with
  | refl => exact ⟨shut_of_free hk h hl ho, [], by simp, by simp⟩
  | step _ hst ih =>
    obtain ⟨h1, new, h2, h3⟩ := ih
    obtain ⟨⟨h4, _⟩, h5⟩ := shut_step hk (fun c h => (hc c h).wire_ne) h1 hst
    refine ⟨h4, ?_⟩
    rcases h5 with h5 | ⟨e, h5, h6⟩
    · exact ⟨new, h5.trans h2, h3⟩
    · refine ⟨new ++ [e], by rw [h5, h2, List.append_assoc], fun x hx => ?_⟩
      rcases List.mem_append.1 hx with hx | hx
      · exact h3 x hx
      · rw [List.mem_singleton.1 hx]; exact h6

end Reconn
end Verif
