import Verif.Props.RewiredUse
import Verif.Props.WiredBreakWitness
/-!
C86: an example.  A connection breaks, a call on it fails, Reconnect replaces the connection, the next call succeeds, and
then the request of the first is carried out.
-/

namespace Verif
namespace Rewired
open Kv Spec Mc Pool Cluster Props
open Wired (Setup Ev tellers)

variable {S M : Type} [DecidableEq S]

theorem put_put (w : State S) (p : Nat) (s : S) (l l' : Line) : (w.put p s l).put p s l' = w.put p s l' := by
  unfold State.put
  congr 1
  funext p' s'
  by_cases h : p' = p ∧ s' = s
  · rw [if_pos h, if_pos h]
  · rw [if_neg h, if_neg h]; exact if_neg h

theorem put_self (w : State S) (p : Nat) (s : S) (l : Line) : (w.put p s l).line p s = l := if_pos ⟨rfl, rfl⟩

theorem work_put {U : Setup S M} {w x : State S} {tr : List (Ev M)} {p : Nat} {s : S} {l : Line} {c' : Reconn.State Nat}
    (h : Run U w tr (x.put p s l)) (hs : Reconn.Step (params U s l.out) l.conn c') (ho : ∀ i, opOf (c'.pc i) = opOf (l.conn.pc i)) :
    Run U w tr (x.put p s { l with conn := c' }) := by
  have := h.snoc (.work (x.put p s l) p s c' (by rw [put_self]; exact hs) (by rw [put_self]; exact ho))
  rw [put_put, put_self, Option.toList_none, List.append_nil] at this
  exact this

theorem goto_at (c : Reconn.State Nat) (i : Nat) (a : Reconn.At) : (c.goto i a).pc i = a := if_pos rfl

theorem goto_opOf (c : Reconn.State Nat) (i : Nat) (a : Reconn.At) (h : opOf a = opOf (c.pc i)) (j : Nat) : opOf ((c.goto i a).pc j) = opOf (c.pc j) := by
  show opOf (if j = i then a else c.pc j) = _
  by_cases e : j = i
  · rw [if_pos e, h, e]
  · rw [if_neg e]

/-- Goroutine `i` has nothing to do with the client, nobody is using it, and its connection can be used. -/
structure Ready (i : Nat) (c : Reconn.State Nat) : Prop where
  pc : c.pc i = .user .idle
  lock : c.lock = none
  raw : c.raw = some c.conn
  isOpen : c.cur.isOpen = true
  werr : c.cur.werr = false
  dialled : c.conn < c.dialled

/-- Goroutine `i` has sent the whole request `wire` on the connection in use, and nothing else is different. -/
structure Sent (i : Nat) (c : Call Out) (wire : Bytes) (a b : Reconn.State Nat) : Prop where
  pc : b.pc i = .user (.writing c [])
  conn : b.conn = a.conn
  raw : b.raw = a.raw
  dialled : b.dialled = a.dialled
  conns : ∀ g, b.conns g = if g = a.conn then { a.cur with sent := a.cur.sent ++ wire } else a.conns g
  log : b.log = a.log

variable {U : Setup S M} {w x : State S} {tr : List (Ev M)} {i : Nat} {s : S} {op : Op} {k : Res Out → Prog S} {wire : Bytes} {l : Line}

theorem run_sent (ht : U.timeout = false) (h : Run U w tr (x.put (U.proc i) s l))
    (hp : x.prog i = some (.call s op k)) (hl : Ready i l.conn) (hw : (U.call s op).wire = .ok wire) :
    ∃ b, Sent i (U.call s op) wire l.conn b ∧ Run U w tr (x.put (U.proc i) s { l with conn := b }) := by
  have r1 := h.snoc (.begin _ i s op k hp (by rw [put_self]; exact hl.pc))
  rw [put_self, put_put, Option.toList_none, List.append_nil] at r1
  have r2 := work_put r1 (.lock _ i (U.call s op) (goto_at _ _ _) hl.lock) (goto_opOf _ _ _ (by rw [goto_at]; rfl))
  have r3 := work_put r2 (.pass _ i (U.call s op) (goto_at _ _ _) fun _ e => by
      have := hl.raw; rw [show l.conn.raw = none from e] at this; cases this) (goto_opOf _ _ _ (by
    show _ = opOf ((Reconn.State.goto _ i _).pc i)
    rw [goto_at]; rfl))
  have r4 := work_put r3 (.noDeadline _ i (U.call s op) wire (goto_at _ _ _) ht hw) (goto_opOf _ _ _ (by rw [goto_at]; rfl))
  have r5 := work_put r4 (.write _ i (U.call s op) wire [] (by rw [List.append_nil]; exact goto_at _ _ _) hl.isOpen hl.werr) (goto_opOf _ _ _ (by rw [goto_at]; rfl))
  refine ⟨_, ?_, r5⟩
  exact ⟨goto_at _ _ _, rfl, rfl, rfl, fun g => rfl, rfl⟩

theorem Sent.cur {c : Call Out} {a b : Reconn.State Nat} (h : Sent i c wire a b) : b.cur = { a.cur with sent := a.cur.sent ++ wire } := by
  show b.conns b.conn = _
  rw [h.conns, h.conn, if_pos rfl]

theorem cur_setConn (b : Reconn.State Nat) (c : Reconn.Conn) : (b.setConn b.conn c).cur = c := if_pos rfl

/-- The connection breaks before the operation has begun to read. -/
theorem run_tardy (h : Run U w tr (x.put (U.proc i) s l)) {wire : Bytes} {a : Reconn.State Nat} (hp : x.prog i = some (.call s op k)) (ha : Ready i a)
    (hs : Sent i (U.call s op) wire a l.conn) :
    ∃ b, b.pc i = .user .idle ∧ b.lock = none ∧ b.conn = a.conn ∧ b.raw = a.raw ∧ b.dialled = a.dialled
      ∧ (∀ g, b.conns g = if g = a.conn then { a.cur with sent := a.cur.sent ++ wire, ended := true, werr := true } else a.conns g)
      ∧ successes b.log = successes a.log
      ∧ Run U w tr ((x.put (U.proc i) s { l with conn := b }).set i (some (k (.err .io)))) := by
  have r2 := work_put h (.hangUp _ l.conn.conn (by rw [hs.conn, hs.dialled]; exact ha.dialled)) (fun j => rfl)
  have hstep := Reconn.Step.writeFails (P := params U s l.out) (l.conn.setConn l.conn.conn { l.conn.conns l.conn.conn with ended := true }) i (U.call s op) [] hs.pc
    (.inr (.inl (congrArg Reconn.Conn.ended (cur_setConn l.conn { l.conn.conns l.conn.conn with ended := true }))))
  have r3 := r2.snoc (.ret _ i s op k (U.call s op) (.err .io) _ hp (by rw [put_self]; exact hstep)
    (by rw [put_self]; exact congrArg opOf hs.pc) (by exact goto_at _ _ _) (by rw [put_self]; rfl))
  rw [put_put, put_self, Option.toList_none, List.append_nil] at r3
  refine ⟨_, ?_, ?_, ?_, ?_, ?_, fun g => ?_, ?_, r3⟩
  · exact goto_at _ _ _
  · rfl
  · exact hs.conn
  · exact hs.raw
  · exact hs.dialled
  · show (if g = l.conn.conn then { (l.conn.setConn l.conn.conn _).cur with werr := true } else (if g = l.conn.conn then _ else l.conn.conns g)) = _
    rw [hs.conn]
    by_cases e : g = a.conn
    · rw [if_pos e, if_pos e, ← hs.conn, cur_setConn, show l.conn.conns l.conn.conn = l.conn.cur from rfl, hs.cur]
    · rw [if_neg e, if_neg e, if_neg e, hs.conns, if_neg e]
  · show successes (l.conn.log ++ _) = _
    rw [hs.log]
    rw [Reconn.successes_append]; rfl

/-- The call is carried out and its reply read. -/
theorem run_good (h : Run U w tr (x.put (U.proc i) s l)) {wire reply : Bytes} {st : Store} {a : Reconn.State Nat} {o : Out} (hp : x.prog i = some (.call s op k)) (ha : Ready i a)
    (hs : Sent i (U.call s op) wire a l.conn) (hend : a.cur.ended = false) (hin : a.cur.inbox = []) (hgot : a.cur.got = l.out a.conn)
    (hu : a.cur.sent.length = l.used a.conn)
    (hst : Mc.step (x.world s) wire = some (reply, st, [])) (hrd : (U.call s op).rd reply = (.ok o, [])) :
    ∃ l', l'.conn.pc i = .user .idle ∧ l'.conn.cur.ended = false ∧ l'.conn.cur.isOpen = true ∧ l'.conn.conn = a.conn
      ∧ (∀ g, g ≠ a.conn → (l'.conn.conns g).sent = (a.conns g).sent ∧ l'.used g = l.used g)
      ∧ successes l'.conn.log = successes a.log
      ∧ Run U w tr { (x.put (U.proc i) s l').set i (some (k (.ok o))) with world := World.update x.world s st, calls := x.calls + 1 } := by
  have r2 := work_put h (.written _ i (U.call s op) hs.pc (by rw [hs.cur]; exact ha.werr)) (goto_opOf _ _ _ (by rw [hs.pc]; rfl))
  have r3 := r2.snoc (.serve _ (U.proc i) s a.conn wire [] reply [] st (by
    rw [put_self, List.append_nil]
    show (l.conn.conns a.conn).sent.drop (l.used a.conn) = wire
    rw [hs.conns, if_pos rfl, ← hu, List.drop_left]) hst)
  rw [put_put, put_self, Option.toList_none, List.append_nil] at r3
  have hsc : l.conn.conns a.conn = { a.cur with sent := a.cur.sent ++ wire } := by rw [hs.conns, if_pos rfl]
  have r4 := work_put (x := { x with world := World.update x.world s st, calls := x.calls + 1 }) r3 (.arrive _ a.conn reply [] (by
      show _ < l.conn.dialled; rw [hs.dialled]; exact ha.dialled)
    (by show (l.conn.conns a.conn).isOpen = true; rw [hsc]; exact ha.isOpen) (by show (l.conn.conns a.conn).ended = false; rw [hsc]; exact hend)
    (by show (if a.conn = a.conn then l.out a.conn ++ reply else _) = (l.conn.conns a.conn).got ++ reply ++ []
        rw [if_pos rfl, hsc, List.append_nil]; rw [hgot])) (fun j => rfl)
  have hstep := Reconn.Step.read (P := params U s (fun h => if h = a.conn then l.out a.conn ++ reply else l.out h)) ((l.conn.goto i (.user (.reading (U.call s op)))).setConn a.conn
        { l.conn.conns a.conn with got := (l.conn.conns a.conn).got ++ reply, inbox := (l.conn.conns a.conn).inbox ++ reply }) i (U.call s op) (goto_at _ _ _)
  have ec : ((l.conn.goto i (.user (.reading (U.call s op)))).setConn a.conn
        { l.conn.conns a.conn with got := (l.conn.conns a.conn).got ++ reply, inbox := (l.conn.conns a.conn).inbox ++ reply }).cur.inbox = reply := by
      show (if l.conn.conn = a.conn then _ else _ : Reconn.Conn).inbox = _
      rw [if_pos hs.conn]
      show (l.conn.conns a.conn).inbox ++ reply = reply
      rw [hsc]; show a.cur.inbox ++ reply = reply
      rw [hin]; rfl
  rw [ec, hrd] at hstep
  have hstep := hstep nofun
  have r5 := r4.snoc (.ret _ i s op k (U.call s op) (.ok o) _ hp (by rw [put_self]; exact hstep)
    (by rw [put_self]; exact congrArg opOf (goto_at _ _ _)) (by exact goto_at _ _ _) (by rw [put_self]; rfl))
  rw [put_put, put_self, Option.toList_none, List.append_nil] at r5
  refine ⟨_, ?_, ?_, ?_, ?_, ?_, ?_, r5⟩
  · exact goto_at _ _ _
  · refine (congrArg Reconn.Conn.ended (if_pos rfl)).trans ?_
    show (if l.conn.conn = a.conn then _ else _ : Reconn.Conn).ended = _
    rw [if_pos hs.conn]
    show (l.conn.conns a.conn).ended = _
    rw [hsc]; exact hend
  · refine (congrArg Reconn.Conn.isOpen (if_pos rfl)).trans ?_
    show (if l.conn.conn = a.conn then _ else _ : Reconn.Conn).isOpen = _
    rw [if_pos hs.conn]
    show (l.conn.conns a.conn).isOpen = _
    rw [hsc]; exact ha.isOpen
  · exact hs.conn
  · intro g hg
    constructor
    · show (if g = l.conn.conn then _ else if g = a.conn then _ else l.conn.conns g : Reconn.Conn).sent = _
      rw [if_neg (by rw [hs.conn]; exact hg), if_neg hg, hs.conns, if_neg hg]
    · exact if_neg hg
  · show successes (l.conn.log ++ _) = _
    rw [hs.log]
    rw [Reconn.successes_append]; rfl

/-- Reconnect. -/
theorem run_reconnect (h : Run U w tr (x.put (U.proc i) s l)) (hpc : l.conn.pc i = .user .idle) (hlock : l.conn.lock = none) {g : Nat} (hraw : l.conn.raw = some g)
    (hopen : (l.conn.conns g).isOpen = true) :
    ∃ b, b.pc i = .user .idle ∧ b.lock = none ∧ b.conn = l.conn.dialled ∧ b.raw = some l.conn.dialled ∧ b.dialled = l.conn.dialled + 1
      ∧ (∀ h, b.conns h = if h = g then { l.conn.conns g with isOpen := false } else l.conn.conns h)
      ∧ successes b.log = successes l.conn.log + 1 ∧ (∀ j, j ≠ i → b.pc j = l.conn.pc j) ∧ Run U w tr (x.put (U.proc i) s { l with conn := b }) := by
  have r1 := work_put h (.callReconnect _ i hpc trivial) (goto_opOf _ _ _ (by rw [hpc]; rfl))
  have r2 := work_put r1 (.lockReconnect _ i (goto_at _ _ _) hlock) (goto_opOf _ _ _ (by rw [goto_at]; rfl))
  have r3 := work_put r2 (.shut _ i g (goto_at _ _ _) hraw hopen) (goto_opOf _ _ _ (by
    show _ = opOf ((Reconn.State.goto _ i _).pc i)
    rw [goto_at]; rfl))
  have r4 := work_put r3 (.dial _ i (goto_at _ _ _)) (goto_opOf _ _ _ (by
    show _ = opOf ((Reconn.State.goto _ i _).pc i)
    rw [goto_at]; rfl))
  have r5 := work_put r4 (.setRaw _ i _ (goto_at _ _ _)) (goto_opOf _ _ _ (by
    show _ = opOf ((Reconn.State.goto _ i _).pc i)
    rw [goto_at]; rfl))
  have r6 := work_put r5 (.setConn _ i _ (goto_at _ _ _)) (goto_opOf _ _ _ (by
    show _ = opOf ((Reconn.State.goto _ i _).pc i)
    rw [goto_at]; rfl))
  refine ⟨_, ?_, ?_, ?_, ?_, ?_, fun h => ?_, ?_, fun j hj => ?_, r6⟩
  · exact goto_at _ _ _
  · rfl
  · rfl
  · rfl
  · rfl
  · rfl
  · show successes (l.conn.log ++ _) = _
    rw [Reconn.successes_append]; rfl
  · have go : ∀ (c : Reconn.State Nat) a, (c.goto i a).pc j = c.pc j := fun c a => if_neg hj
    exact (go _ _).trans ((go _ _).trans ((go _ _).trans ((go _ _).trans ((go _ _).trans (go _ _)))))

/-- What is seen before Reconnect, and after it. -/
def before : List (Ev Op) := [.start 0 (.increment b!"x" 1 0), .finish 0 (.err .io)]
def after : List (Ev Op) := [.start 0 (.increment b!"x" 1 0), .finish 0 (.ok (.num 42))]

/-- The counter was 41.  The call of an increment fails, and has not been carried out; Reconnect replaces the connection;
the same call succeeds with the result 42; then the request of the first is carried out as well, and the counter is 43. -/
theorem C86_concrete : ∃ (p : Bytes → Bytes) (x1 x2 x3 : State Bytes), PatchedUse tellers realHashes id ab p (counters none) (before ++ after) x2
    ∧ PatchedUse tellers realHashes id ab p (counters none) (before ++ after) x3
    ∧ Run tellers (State.init (counters none)) before x1 ∧ Run tellers x1 after x3 ∧ x1.prog 0 = none
    ∧ (∃ e, (x1.world (p b!"x")).find b!"x" = some e ∧ counterOf e.value = some 41)
    ∧ (∃ e, (x2.world (p b!"x")).find b!"x" = some e ∧ counterOf e.value = some 42)
    ∧ (∃ e, (x3.world (p b!"x")).find b!"x" = some e ∧ counterOf e.value = some 43)
    ∧ successes (x1.line 0 (p b!"x")).conn.log = 1 ∧ successes (x3.line 0 (p b!"x")).conn.log = 1
    ∧ ((x1.line 0 (p b!"x")).conn.conns 0).ended = true ∧ ¬ Broken x3 0 (p b!"x") := by
  obtain ⟨p, hx, -, h⟩ := C67_concrete [] (by simp) [] (by decide)
  have use : ∀ {x}, Run tellers (State.init (counters none)) (before ++ after) x → PatchedUse tellers realHashes id ab p (counters none) (before ++ after) x := by
    intro x hr
    refine ⟨rfl, ⟨id, id, rfl⟩, h.pick, hr, ?_, fun _ => good_put _ _ (by decide), fun _ => (by decide : (2 : Nat) + 2 + 1 < 2 ^ 63)⟩
    intro i o hi
    simp only [before, after, List.cons_append, List.nil_append, Spec.Wired.starts, List.mem_cons, List.not_mem_nil, or_false, Prod.mk.injEq] at hi
    rcases hi with ⟨-, rfl⟩ | ⟨-, rfl⟩ <;> exact ⟨⟨by decide, by decide⟩, nofun⟩
  have hm : ∃ fin, tellers.method (.increment b!"x" 1 0) = .call b!"a" (.increment b!"x" 1 0) fin ∧ fin (.err .io) = .ret (.err .io)
      ∧ fin (.ok (.num 42)) = .ret (.ok (.num 42)) := by
    obtain ⟨fin, g1, g2, g3, -⟩ := poolProg_one realHashes id ab id id (.increment b!"x" 1 0) b!"x" b!"a" rfl (by rw [h.pick, hx])
    exact ⟨fin, g1, g3 _, g2 _ trivial⟩
  obtain ⟨fin, hm1, hm2, hm3⟩ := hm
  have hwire : (tellers.call b!"a" (.increment b!"x" 1 0)).wire = .ok b!"incr x 1\r\n" := by decide +kernel
  have hrd : (tellers.call b!"a" (.increment b!"x" 1 0)).rd b!"42\r\n" = (.ok (.num 42), []) := by rfl
  obtain ⟨e0, hd0, hx0, hv0⟩ : ∃ e, (counters none b!"a").data b!"x" = some e ∧ e.expiry = none ∧ counterOf e.value = some 41 := by
    have key : ((counters none b!"a").data b!"x").map (fun e => (e.expiry, counterOf e.value)) = some (none, some 41) := by decide +kernel
    obtain ⟨u, g1, g2⟩ := Option.map_eq_some_iff.1 key
    simp only [Prod.mk.injEq] at g2
    exact ⟨u, g1, g2⟩
  obtain ⟨st1, st2, hs1, ⟨e1, hd1, hx1, hv1⟩, hs2, e2, hd2, hx2, hv2⟩ : ∃ st1 st2, Mc.step (counters none b!"a") b!"incr x 1\r\n" = some (b!"42\r\n", st1, [])
      ∧ (∃ e, st1.data b!"x" = some e ∧ e.expiry = none ∧ counterOf e.value = some 42) ∧ Mc.step st1 b!"incr x 1\r\n" = some (b!"43\r\n", st2, [])
      ∧ ∃ e, st2.data b!"x" = some e ∧ e.expiry = none ∧ counterOf e.value = some 43 := by
    have key1 : ((Mc.step (counters none b!"a") b!"incr x 1\r\n").map fun y => (y.1, y.2.2, (y.2.1.data b!"x").map fun e => (e.expiry, counterOf e.value)))
        = some (b!"42\r\n", [], some (none, some 42)) := by decide +kernel
    have key2 : ((Mc.step (counters none b!"a") b!"incr x 1\r\n").bind fun y => (Mc.step y.2.1 b!"incr x 1\r\n").map fun z =>
        (z.1, z.2.2, (z.2.1.data b!"x").map fun e => (e.expiry, counterOf e.value)))
        = some (b!"43\r\n", [], some (none, some 43)) := by decide +kernel
    obtain ⟨y, h1, h2⟩ := Option.map_eq_some_iff.1 key1
    rw [h1, Option.bind_some] at key2
    obtain ⟨z, h3, h4⟩ := Option.map_eq_some_iff.1 key2
    simp only [Prod.mk.injEq] at h2 h4
    obtain ⟨e1, e2, e3⟩ := h2
    obtain ⟨e4, e5, e6⟩ := h4
    obtain ⟨u, g1, g2⟩ := Option.map_eq_some_iff.1 e3
    obtain ⟨v, g3, g4⟩ := Option.map_eq_some_iff.1 e6
    simp only [Prod.mk.injEq] at g2 g4
    exact ⟨y.2.1, z.2.1, by rw [h1, ← e1, ← e2], ⟨u, g1, g2⟩, by rw [h3, ← e4, ← e5], v, g3, g4⟩
  -- the first call
  have r0 : Run tellers (State.init (counters none)) [] _ := .nil
  have r1 := r0.snoc (.start _ 0 (.increment b!"x" 1 0) rfl)
  rw [← put_same ((State.init (counters none)).set 0 _) (tellers.proc 0) b!"a"] at r1
  have rdy : Ready 0 (Reconn.init : Reconn.State Nat) := ⟨rfl, rfl, rfl, rfl, rfl, by decide⟩
  obtain ⟨b, hb, r2⟩ := run_sent rfl r1 (i := 0) (by rw [← hm1]; rfl) rdy hwire
  obtain ⟨c, c1, c2, c3, c4, c5, c6, c7, r3⟩ := run_tardy r2 (i := 0) (by rw [← hm1]; rfl) rdy hb
  rw [hm2] at r3
  have r4 := r3.snoc (.finish _ 0 (.err .io) rfl)
  -- Reconnect
  rw [← put_same (State.set _ 0 none) (tellers.proc 0) b!"a"] at r4
  obtain ⟨d, d1, d2, d3, d4, d5, d6, d7, -, r5⟩ := run_reconnect r4 (i := 0) c1 c2 (g := 0) c4 (by
    show (c.conns 0).isOpen = true
    rw [c6]; rfl)
  have dc : d.conn = 1 := d3.trans c5
  have dr : d.raw = some 1 := d4.trans (congrArg some c5)
  have dd : d.dialled = 2 := d5.trans (congrArg (· + 1) c5)
  have dn1 : d.conns 1 = {} := by rw [d6, if_neg (by decide)]; show c.conns 1 = _; rw [c6]; rfl
  have dn0 : (d.conns 0).sent = b!"incr x 1\r\n" ∧ (d.conns 0).ended = true := by
    rw [d6, if_pos rfl]
    show (c.conns 0).sent = _ ∧ (c.conns 0).ended = _
    rw [c6]; exact ⟨rfl, rfl⟩
  have dcur : d.cur = {} := by show d.conns d.conn = _; rw [dc]; exact dn1
  have ds : successes d.log = 1 := by
    rw [d7]
    show successes c.log + 1 = 1
    rw [c7]; rfl
  have key : ∀ x1 : State Bytes, x1.line 0 b!"a" = { conn := d } → x1.prog 0 = none → x1.world = counters none →
      ∃ x2 x3, Run tellers x1 after x2 ∧ Run tellers x1 after x3 ∧ x2.world b!"a" = st1 ∧ x3.world b!"a" = st2
        ∧ successes (x3.line 0 b!"a").conn.log = 1 ∧ ¬ Broken x3 0 b!"a" := by
    intro x1 hl hp hw
    have r0 : Run tellers x1 [] _ := .nil
    have r1 := r0.snoc (.start _ 0 (.increment b!"x" 1 0) hp)
    rw [← put_same (x1.set 0 _) (tellers.proc 0) b!"a", show (x1.set 0 (some (tellers.method (.increment b!"x" 1 0)))).line (tellers.proc 0) b!"a" = { conn := d } from hl] at r1
    have rdy : Ready 0 d := ⟨d1, d2, dr.trans (congrArg some dc.symm), by rw [dcur], by rw [dcur], by rw [dc, dd]; decide⟩
    obtain ⟨b, hb, r2⟩ := run_sent rfl r1 (i := 0) (by rw [← hm1]; rfl) rdy hwire
    obtain ⟨l', l1, l2, l3, l4, l5, l6, r3⟩ := run_good r2 (i := 0) (by rw [← hm1]; rfl) rdy hb (by rw [dcur]) (by rw [dcur]) (by rw [dcur]) (by rw [dcur]; rfl)
      (by show Mc.step (x1.world b!"a") _ = _; rw [hw]; exact hs1) hrd
    rw [hm3] at r3
    have r4 := r3.snoc (.finish _ 0 (.ok (.num 42)) rfl)
    obtain ⟨l7, l8⟩ := l5 0 (by rw [dc]; decide)
    have r5 := r4.snoc (.serve _ 0 b!"a" 0 b!"incr x 1\r\n" [] b!"43\r\n" [] st2 (by
      show (l'.conn.conns 0).sent.drop (l'.used 0) = _
      rw [l7, l8, dn0.1]; rfl) hs2)
    refine ⟨_, _, r4, r5, rfl, rfl, l6.trans ds, ?_⟩
    rintro (g | g)
    · exact absurd (l2.symm.trans g) nofun
    · exact absurd (l3.symm.trans g) nofun
  obtain ⟨x1, r6, hl, hp, hw⟩ : ∃ x1, Run tellers (State.init (counters none)) before x1 ∧ x1.line 0 b!"a" = { conn := d } ∧ x1.prog 0 = none ∧ x1.world = counters none :=
    ⟨_, r5, rfl, rfl, rfl⟩
  obtain ⟨x2, x3, q1, q2, q3, q4, q5, q6⟩ := key x1 hl hp hw
  refine ⟨p, x1, x2, x3, use (r6.trans q1), use (r6.trans q2), r6, q2, hp, ?_⟩
  rw [hx, q3, q4, hl, hw]
  exact ⟨⟨_, find_forever hd0 hx0, hv0⟩, ⟨_, find_forever hd1 hx1, hv1⟩, ⟨_, find_forever hd2 hx2, hv2⟩, ds, q5, dn0.2, q6⟩

/-- From Reconnect on `C86_error_broken` applies: however the run had gone on to a moment at which the new connection is
neither broken nor replaced, no increment would have returned a connection error. -/
example (p : Bytes → Bytes) (tr1 tr2 : List (Ev Op)) (x1 x3 : State Bytes) (c : PatchedUse tellers realHashes id ab p (counters none) (tr1 ++ tr2) x3)
    (h1 : Run tellers (State.init (counters none)) tr1 x1) (h2 : Run tellers x1 tr2 x3) (hi : x1.prog 0 = none)
    (hops : ∀ o, (0, o) ∈ Spec.Wired.starts tr2 → o = .increment b!"x" 1 0) (hb : ¬ Broken x3 0 (p b!"x"))
    (hr : successes (x3.line 0 (p b!"x")).conn.log = successes (x1.line 0 (p b!"x")).conn.log) : .finish 0 (.err .io) ∉ tr2 := by
  intro hf
  obtain ⟨o, k, g1, g2, g3⟩ := C86_error_broken c h1 h2 hi hf
  rw [hops o g1] at g2
  cases g2
  rcases g3 with g | g
  · exact hb g
  · exact absurd g (by rw [show tellers.proc 0 = 0 from rfl, hr]; exact Nat.lt_irrefl _)

end Rewired
end Verif
