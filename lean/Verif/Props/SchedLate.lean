import Verif.Props.SchedClose
/-!
C54: after a read timeout the connection stays in use, and the late reply is read by the next operation.
-/

namespace Verif
namespace Sched
open Spec
open Life (Kind errClosed errAlready)

variable {T : Type} [DecidableEq T]

/-- Nothing is going on and nothing bad has happened. -/
structure Quiet (s : State T) : Prop where
  lock : s.lock = none
  raw : s.raw = true
  isOpen : s.isOpen = true
  ended : s.ended = false
  werr : s.werr = false
  idle : ∀ t, s.pc t = .idle

theorem quiet_init : Quiet (init : State T) := ⟨rfl, rfl, rfl, rfl, rfl, fun _ => rfl⟩

/-- The state in which goroutine `t` has sent the request of `c` and reads. -/
def asked (s : State T) (t : T) (c : Call Out) (w : Bytes) : State T :=
  { s.goto t (.reading c) with lock := some t, sent := s.sent ++ w }

theorem goto_goto (s : State T) (t : T) (a b : At) : (s.goto t a).goto t b = s.goto t b := by
  unfold State.goto
  congr 1
  funext u
  by_cases hu : u = t <;> simp [hu]

/-- An operation gets that far. -/
theorem reach_asked {P : Params T} {s : State T} (h : Reach P s) (hq : Quiet s) (t : T) {c : Call Out} (hc : P.calls c)
    {w : Bytes} (hw : c.wire = .ok w) : Reach P (asked s t c w) := by
  have h1 := h.step (.call s t c (hq.idle t) hc)
  have h2 := h1.step (.lock _ t c (by simp [goto_pc]) hq.lock)
  have h3 := h2.step (.pass _ t c (by simp [goto_pc]) (fun _ => hq.raw))
  have h4 : ∃ s', Reach P s' ∧ s' = { s.goto t (.writing c w) with lock := some t } := by
    cases hto : P.timeout with
    | false =>
      have h4 := h3.step (.noDeadline _ t c w (by simp [goto_pc]) hto hw)
      exact ⟨_, h4, by simp only [State.goto]; congr 1; funext u; by_cases hu : u = t <;> simp [hu]⟩
    | true =>
      have h4 := h3.step (.writeDeadline _ t c (by simp [goto_pc]) hto hq.raw)
      have h5 := h4.step (.readDeadline _ t c w (by simp [goto_pc]) hq.raw hw)
      exact ⟨_, h5, by simp only [State.goto]; congr 1; funext u; by_cases hu : u = t <;> simp [hu]⟩
  obtain ⟨s4, h4, rfl⟩ := h4
  have h5 := h4.step (.write _ t c w [] (by simp [goto_pc]) hq.isOpen hq.werr)
  have h6 := h5.step (.written _ t c (by simp [goto_pc]) hq.werr)
  have e : asked s t c w = State.goto { State.goto { s.goto t (.writing c w) with lock := some t } t (.writing c [])
      with sent := s.sent ++ w } t (.reading c) := by
    simp only [asked, State.goto]; congr 1; funext u; by_cases hu : u = t <;> simp [hu]
  rw [e]
  exact h6

/-- What the next states look like. -/
structure Next (s s' : State T) (w : Bytes) (e : Call Out × Res Out) (got inbox : Bytes) : Prop where
  quiet : Quiet s'
  log : s'.log = s.log ++ [e]
  sent : s'.sent = s.sent ++ w
  got : s'.got = got
  inbox : s'.inbox = inbox

/-- An operation whose reply arrives in time. -/
theorem reach_answered {P : Params T} {s : State T} (h : Reach P s) (hq : Quiet s) (t : T) {c : Call Out} (hc : P.calls c)
    {w y : Bytes} (hw : c.wire = .ok w) (hy : P.resp (s.sent ++ w) = s.got ++ y)
    (hio : (c.rd (s.inbox ++ y)).1 ≠ .err .io) :
    ∃ s', Reach P s' ∧ Next s s' w (c, (c.rd (s.inbox ++ y)).1) (s.got ++ y) (c.rd (s.inbox ++ y)).2 := by
  have h1 := reach_asked h hq t hc hw
  have h2 := h1.step (.arrive _ y [] hq.isOpen hq.ended (by show P.resp (s.sent ++ w) = s.got ++ y ++ []; rw [List.append_nil]; exact hy))
  have h3 := h2.step (.read _ t c (by simp [asked, goto_pc]) hio)
  refine ⟨_, h3, ⟨rfl, hq.raw, hq.isOpen, hq.ended, hq.werr, fun u => ?_⟩, rfl, rfl, rfl, rfl⟩
  simp only [State.ret, goto_pc, asked]
  by_cases hu : u = t <;> simp [hu, hq.idle u]

/-- An operation none of whose reply arrives in time. -/
theorem reach_late {P : Params T} {s : State T} (h : Reach P s) (hq : Quiet s) (t : T) {c : Call Out} (hc : P.calls c)
    {w : Bytes} (hw : c.wire = .ok w) (h1 : P.timeout = true) (h2 : P.late = true)
    (hio : (c.rd s.inbox).1 = .err .io) :
    ∃ s', Reach P s' ∧ Next s s' w (c, .err .io) s.got [] := by
  have h3 := reach_asked h hq t hc hw
  have h4 := h3.step (.readTimeout _ t c (by simp [asked, goto_pc]) hio h1 h2)
  refine ⟨_, h4, ⟨rfl, hq.raw, hq.isOpen, hq.ended, hq.werr, fun u => ?_⟩, rfl, rfl, rfl, rfl⟩
  simp only [State.ret, goto_pc, asked]
  by_cases hu : u = t <;> simp [hu, hq.idle u]

/-- **C54** (a defect): with `Timeout` set, when no part of the reply to an operation comes in time, the operation
fails but the connection stays in use, and the next operation, `d`, reads the late reply of the first
one before its own. -/
theorem C54_late_reply (P : Params T) (hon : Online P.resp) (h1 : P.timeout = true) (h2 : P.late = true)
    (t : T) (c d : Call Out) (hc : P.calls c) (hd : P.calls d) (hcc : ClientCall P.kind c) (w v : Bytes)
    (hw : c.wire = .ok w) (hv : d.wire = .ok v)
    (hio : (d.rd (replyTo P.resp [] w ++ replyTo P.resp w v)).1 ≠ .err .io) :
    ∃ s, Reach P s ∧
      s.log = [(c, .err .io), (d, (d.rd (replyTo P.resp [] w ++ replyTo P.resp w v)).1)] := by
  have e : replyTo P.resp [] w ++ replyTo P.resp w v = P.resp (w ++ v) := by
    obtain ⟨z, hz⟩ := hon.2 w v
    simp only [replyTo, hon.1, List.length_nil, List.drop_zero, List.nil_append, ← hz, List.drop_left]
  rw [e] at hio ⊢
  obtain ⟨s1, r1, n1⟩ := reach_late Reach.init quiet_init t hc hw h1 h2 (by
    show (c.rd []).1 = _; rw [hcc.reader.2])
  have hs1 : s1.sent = w := n1.sent
  have hg1 : s1.got = [] := n1.got
  have hi1 : s1.inbox = [] := n1.inbox
  have hl1 : s1.log = [(c, .err .io)] := n1.log
  obtain ⟨s2, r2, n2⟩ := reach_answered r1 n1.quiet t hd hv (y := P.resp (w ++ v)) (by rw [hs1, hg1]; rfl)
    (by rw [hi1]; exact hio)
  refine ⟨s2, r2, ?_⟩
  rw [n2.log, hl1, hi1]
  rfl

theorem textApi_get (name key : Bytes) (s : Kv.Store) : textApi name s (.get key)
    = match s.find key with
      | some e => (.ok (.item (textItem name key e e.cas)), s)
      | none => (.err .itemNotFound, s) := rfl

open Kv in
/-- A Get at a memcached server, exactly answered. -/
theorem get_answered (name key : Bytes) (hk : Key key) (store : Store) (hs : GoodStore store) :
    ∃ w reply, (Mc.textCall name (.get key)).wire = .ok w ∧ Mc.answer store w = some (reply, store) ∧
      (∀ k, (Mc.textCall name (.get k)).rd reply = ((textApi name store (.get key)).1, [])) ∧
      (textApi name store (.get key)).1 ≠ .err .io := by
  have h := Props.C52_text_call name (.get key) hk store hs
  have hst : (textApi name store (.get key)).2 = store := by
    rw [textApi_get]; cases store.find key <;> rfl
  unfold Mc.exchange at h
  cases hw : (Mc.textCall name (.get key)).wire with
  | err e => rw [hw] at h; cases h
  | panic => rw [hw] at h; cases h
  | ok w =>
    rw [hw] at h
    simp only at h
    cases ha : Mc.answer store w with
    | none => rw [ha] at h; cases h
    | some q =>
      obtain ⟨reply, s'⟩ := q
      rw [ha] at h
      simp only at h
      cases hr : (Mc.textCall name (.get key)).rd reply with
      | mk res rest =>
        rw [hr] at h
        cases rest with
        | cons b rest => cases h
        | nil =>
          simp only at h
          split at h
          · cases h
          · rename_i hne
            simp only [Option.some.injEq] at h
            have e1 : res = (textApi name store (.get key)).1 := by rw [← h]
            have e2 : s' = store := by rw [← hst, ← h]
            subst e2 e1
            exact ⟨w, reply, rfl, ha, fun k => hr, hne⟩

open Kv in
/-- **C54** (a defect), at a memcached server: when the reply to the first Get on a text connection with `Timeout`
comes too late, and the goroutine goes on, each further Get returns what the server holds for the key of the
Get before it. -/
theorem C54_wrong_items (P : Params T) (name : Bytes) (store : Store) (hs : GoodStore store)
    (hk : P.kind = .text) (hp : P.resp = Mc.output store) (h1 : P.timeout = true) (h2 : P.late = true)
    (hc : ∀ k, Key k → P.calls (Mc.textCall name (.get k))) (t : T) (key : Bytes) (keys : List Bytes)
    (hkey : Key key) (hkeys : ∀ k ∈ keys, Key k) :
    ∃ s, Reach P s ∧ s.log.map (·.1) = (key :: keys).map (fun k => Mc.textCall name (.get k)) ∧
      s.log.map (·.2) = .err .io :: ((key :: keys).dropLast.map fun k => (textApi name store (.get k)).1) := by
  -- what is unread is the reply to the last Get
  have main : ∀ (ks : List Bytes), (∀ k ∈ ks, Key k) → ∃ s, Reach P s ∧ Quiet s ∧
      s.log.map (·.1) = (key :: ks).map (fun k => Mc.textCall name (.get k)) ∧
      s.log.map (·.2) = .err .io :: ((key :: ks).dropLast.map fun k => (textApi name store (.get k)).1) ∧
      (∀ x, P.resp (s.sent ++ x) = P.resp s.sent ++ Mc.output store x) ∧
      ∃ x, P.resp s.sent = s.got ++ x ∧ ∀ k, (Mc.textCall name (.get k)).rd (s.inbox ++ x)
        = ((textApi name store (.get ((key :: ks).getLast (by simp)))).1, []) := by
    intro ks
    generalize hn : ks.length = n
    induction n generalizing ks with
    | zero =>
      rw [List.length_eq_zero_iff.1 hn]
      intro _
      obtain ⟨w, reply, a1, a2, a3, a4⟩ := get_answered name key hkey store hs
      obtain ⟨s1, r1, n1⟩ := reach_late Reach.init quiet_init t (hc key hkey) a1 h1 h2 rfl
      have hs1 : s1.sent = w := n1.sent
      have hg1 : s1.got = [] := n1.got
      have hi1 : s1.inbox = [] := n1.inbox
      have hl1 : s1.log = [(Mc.textCall name (.get key), .err .io)] := n1.log
      have ho : ∀ x, Mc.output store (w ++ x) = reply ++ Mc.output store x := fun x => Mc.output_answer a2 x
      have ho' : Mc.output store w = reply := by
        have := ho []
        rw [List.append_nil, show Mc.output store [] = [] from rfl, List.append_nil] at this
        exact this
      refine ⟨s1, r1, n1.quiet, by rw [hl1]; rfl, by rw [hl1]; rfl, ?_, reply, ?_, ?_⟩
      · intro x; rw [hp, hs1, ho, ho']
      · rw [hp, hs1, ho', hg1]; rfl
      · intro k; rw [hi1]; exact a3 k
    | succ n ih =>
      intro hks
      obtain ⟨ls, l, rfl⟩ : ∃ ls l, ks = ls ++ [l] :=
        ⟨ks.dropLast, ks.getLast (by intro hh; rw [hh] at hn; cases hn), (List.dropLast_concat_getLast _).symm⟩
      obtain ⟨s, r, q, l1, l2, ho, x, hx, hrd⟩ := ih ls (by simpa using hn) (fun k hk => hks k (by simp [hk]))
      have hl : Key l := hks l (by simp)
      obtain ⟨w, reply, a1, a2, a3, a4⟩ := get_answered name l hl store hs
      have hout : Mc.output store w = reply := by
        have := Mc.output_answer a2 []
        rw [List.append_nil, show Mc.output store [] = [] from rfl, List.append_nil] at this
        exact this
      have hst := stable_textCall name (.get l) (s.inbox ++ x) reply
      rw [hrd l] at hst
      have hne : (textApi name store (.get ((key :: ls).getLast (by simp)))).1 ≠ .err .io := by
        rw [textApi_get]
        cases store.find ((key :: ls).getLast (by simp)) <;> simp
      have hst' := hst hne
      obtain ⟨s', r', nx⟩ := reach_answered r q t (hc l hl) a1 (y := x ++ reply)
        (by rw [ho, hout, hx, List.append_assoc])
        (by rw [← List.append_assoc, hst']; exact hne)
      rw [← List.append_assoc s.inbox, hst'] at nx
      have e1 : (key :: (ls ++ [l])) = (key :: ls) ++ [l] := rfl
      refine ⟨s', r', nx.quiet, ?_, ?_, ?_, [], ?_, ?_⟩
      · rw [nx.log, List.map_append, l1, e1, List.map_append]; rfl
      · rw [nx.log, List.map_append, l2]
        simp only [e1, List.dropLast_concat]
        have e2 := List.dropLast_concat_getLast (l := key :: ls) (by simp)
        conv => rhs; rw [← e2]
        simp
      · intro z
        rw [nx.sent, List.append_assoc, ho, ho, Mc.output_answer a2 z, hout, List.append_assoc]
      · rw [nx.sent, nx.got, ho, hout, hx]; simp
      · intro k
        rw [nx.inbox]
        show (Mc.textCall name (.get k)).rd (([] ++ reply) ++ []) = _
        rw [List.nil_append, List.append_nil, a3 k]
        have e3 : ∀ h, (key :: (ls ++ [l])).getLast h = l := fun h => List.getLast_concat (l := key :: ls)
        rw [e3]
  obtain ⟨s, r, _, l1, l2, _⟩ := main keys hkeys
  exact ⟨s, r, l1, l2⟩

/-! ## Runs that meet the hypotheses -/

/-- Two goroutines at a text connection to an empty memcached server; goroutine `true` may call Close. -/
def twoUsers (timeout late : Bool) : Params Bool where
  kind := .text
  timeout := timeout
  late := late
  resp := Mc.output (Props.emptyStore 0)
  calls c := ∃ op, GoodOp op ∧ c = Mc.textCall b!"s" op
  closers t := t = true

/-- One stores, the other one reads. -/
example : ∃ s, Reach (twoUsers true false) s ∧ s.isOpen = true ∧ s.ended = false ∧
    s.log.map (·.2) = [.ok .done, .ok (.item (textItem b!"s" b!"a" ⟨b!"7", 0, none, 1⟩ 1))] := by
  have hc1 : (twoUsers true false).calls (Mc.textCall b!"s" (.set { key := b!"a", value := b!"7" })) :=
    ⟨.set { key := b!"a", value := b!"7" }, (⟨by decide, by decide, by decide, by decide⟩ : GoodItem _), rfl⟩
  have hc2 : (twoUsers true false).calls (Mc.textCall b!"s" (.get b!"a")) := ⟨.get b!"a", (by decide : Key b!"a"), rfl⟩
  obtain ⟨s1, r1, n1⟩ := reach_answered (P := twoUsers true false) Reach.init quiet_init true hc1
    (w := b!"set a 0 0 1\r\n7\r\n") (y := b!"STORED\r\n") (by decide +kernel) (by decide +kernel) (by decide +kernel)
  have hg : s1.got = b!"STORED\r\n" := n1.got
  have hi : s1.inbox = [] := by rw [n1.inbox]; decide +kernel
  have hs : s1.sent = b!"set a 0 0 1\r\n7\r\n" := n1.sent
  obtain ⟨s2, r2, n2⟩ := reach_answered r1 n1.quiet false hc2
    (w := b!"gets a\r\n") (y := b!"VALUE a 0 1 1\r\n7\r\nEND\r\n") (by rfl) (by rw [hg, hs]; decide +kernel)
    (by rw [hi]; decide +kernel)
  refine ⟨s2, r2, n2.quiet.isOpen, n2.quiet.ended, ?_⟩
  rw [n2.log, n1.log, hi]
  decide +kernel

/-- In these runs Close by one goroutine may race with operations of both. -/
example : (twoUsers true true).closers true ∧ ∀ t u, (twoUsers false true).closers t → (twoUsers false true).closers u → t = u :=
  ⟨rfl, fun _ _ h1 h2 => h1.trans h2.symm⟩

end Sched
end Verif
