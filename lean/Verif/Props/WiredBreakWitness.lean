import Verif.Props.WiredBreakRest
/-!
C85: examples.  Two processes add one to a counter, both connections break: one call has been carried out, one is
carried out after it has returned.
-/

namespace Verif
namespace Wired
open Kv Spec Mc Pool Cluster Props

variable {S M : Type} [DecidableEq S]

theorem put_put (w : State S) (p : Nat) (s : S) (l l' : Line) : (w.put p s l).put p s l' = w.put p s l' := by
  unfold State.put
  congr 1
  funext p' s'
  by_cases h : p' = p ∧ s' = s
  · rw [if_pos h, if_pos h]
  · rw [if_neg h, if_neg h]; exact if_neg h

theorem put_same (w : State S) (p : Nat) (s : S) : w.put p s (w.line p s) = w := by
  unfold State.put
  congr 1
  funext p' s'
  by_cases h : p' = p ∧ s' = s
  · rw [if_pos h, h.1, h.2]
  · rw [if_neg h]

theorem work_put {U : Setup S M} {w x : State S} {tr : List (Ev M)} {p : Nat} {s : S} {l : Line} {c' : Sched.State Nat}
    (h : Run U w tr (x.put p s l)) (hs : Sched.Step (U.params s l.out) l.conn c') (ho : ∀ i, (c'.pc i).op = (l.conn.pc i).op) :
    Run U w tr (x.put p s { l with conn := c' }) := by
  have := h.snoc (.work (x.put p s l) p s c' (by rw [put_self]; exact hs) (by rw [put_self]; exact ho))
  rw [put_put, put_self, Option.toList_none, List.append_nil] at this
  exact this

/-- After the whole request was sent. -/
def sentAll (i : Nat) (c : Call Out) (wire : Bytes) : Sched.State Nat :=
  { (Sched.init : Sched.State Nat) with lock := some i, sent := wire, pc := fun u => if u = i then .writing c [] else .idle }

theorem run_sent {U : Setup S M} (ht : U.timeout = false) {w x : State S} {tr : List (Ev M)} (h : Run U w tr x) {i : Nat} {s : S}
    {op : Op} {k : Res Out → Prog S} {wire : Bytes} (hp : x.prog i = some (.call s op k)) (hl : x.line (U.proc i) s = {})
    (hw : (U.call s op).wire = .ok wire) :
    Run U w tr (x.put (U.proc i) s { conn := sentAll i (U.call s op) wire }) := by
  have goto : ∀ (c : Sched.State Nat) (a b : Sched.At), (c.goto i a).goto i b = c.goto i b := by
    intro c a b
    unfold Sched.State.goto
    congr 1
    funext u
    by_cases hu : u = i
    · rw [if_pos hu, if_pos hu]
    · rw [if_neg hu, if_neg hu]; exact if_neg hu
  have at_ : ∀ (c : Sched.State Nat) (a : Sched.At), (c.goto i a).pc i = a := fun c a => if_pos rfl
  have r1 := h.snoc (.begin x i s op k hp (by rw [hl]; rfl))
  rw [hl, Option.toList_none, List.append_nil] at r1
  have r2 := work_put r1 (.lock _ i (U.call s op) (at_ _ _) rfl) (fun j => goto_op _ i j _ (by rw [at_]; rfl))
  have r3 := work_put r2 (.pass _ i (U.call s op) (at_ _ _) fun _ => rfl) (fun j => goto_op _ i j _ (by
    show _ = ((Sched.State.goto _ i _).pc i).op
    rw [at_]; rfl))
  have r4 := work_put r3 (.noDeadline _ i (U.call s op) wire (at_ _ _) ht hw) (fun j => goto_op _ i j _ (by rw [at_]; rfl))
  have r5 := work_put r4 (.write _ i (U.call s op) wire [] (by rw [List.append_nil]; exact at_ _ _) rfl rfl) (fun j => goto_op _ i j _ (by rw [at_]; rfl))
  have e : (⟨sentAll i (U.call s op) wire, 0, []⟩ : Line).conn = _ := rfl
  refine cast ?_ r5
  congr 2
  simp only [Line.mk.injEq, and_true, sentAll, Sched.State.goto]
  congr 1
  funext u
  by_cases hu : u = i <;> simp [hu, Sched.init]

/-- The connection breaks before the operation has begun to read; the request has been sent. -/
theorem run_tardy {U : Setup S M} (ht : U.timeout = false) {w x : State S} {tr : List (Ev M)} (h : Run U w tr x) {i : Nat} {s : S}
    {op : Op} {k : Res Out → Prog S} {wire : Bytes} (hp : x.prog i = some (.call s op k)) (hl : x.line (U.proc i) s = {})
    (hw : (U.call s op).wire = .ok wire) :
    ∃ c, c.sent = wire ∧ c.ended = true ∧ Run U w tr ((x.put (U.proc i) s { conn := c }).set i (some (k (.err .io)))) := by
  have r1 := run_sent ht h hp hl hw
  have r2 := work_put r1 (.hangUp _) (fun j => rfl)
  have r3 := r2.snoc (.ret _ i s op k (U.call s op) (.err .io) _ hp (by
    rw [put_self]
    exact .writeFails _ i (U.call s op) [] (if_pos rfl) (.inr (.inl rfl)))
    (by rw [put_self]; exact congrArg _ (if_pos rfl : (if i = i then _ else _) = _)) (if_pos rfl) (by rw [put_self]; rfl))
  rw [put_put, put_self, Option.toList_none, List.append_nil] at r3
  exact ⟨_, rfl, rfl, r3⟩

/-- The command is carried out, the connection breaks, no reply arrives. -/
theorem run_lost {U : Setup S M} (ht : U.timeout = false) {w x : State S} {tr : List (Ev M)} (h : Run U w tr x) {i : Nat} {s : S}
    {op : Op} {k : Res Out → Prog S} {wire reply : Bytes} {st : Store} (hp : x.prog i = some (.call s op k)) (hl : x.line (U.proc i) s = {})
    (hw : (U.call s op).wire = .ok wire) (hs : Mc.step (x.world s) wire = some (reply, st, [])) (hr : ((U.call s op).rd []).1 = .err .io) :
    ∃ l, l.conn.ended = true ∧ Run U w tr ({ (x.put (U.proc i) s l).set i (some (k (.err .io))) with
      world := World.update x.world s st, calls := x.calls + 1 }) := by
  have r1 := run_sent ht h hp hl hw
  have r2 := work_put r1 (.written _ i (U.call s op) (if_pos rfl) rfl) (fun j => goto_op _ i j _ (by
    show _ = (if i = i then Sched.At.writing _ [] else _ : Sched.At).op
    rw [if_pos rfl]; rfl))
  have r3 := r2.snoc (.serve _ (U.proc i) s wire [] reply [] st (by rw [put_self, List.append_nil]; rfl) hs)
  rw [put_put, put_self, Option.toList_none, List.append_nil] at r3
  have r4 := work_put (x := { x with world := World.update x.world s st, calls := x.calls + 1 }) r3 (.hangUp _) (fun j => rfl)
  have r5 := r4.snoc (.ret _ i s op k (U.call s op) (.err .io) _ hp (by
    rw [put_self]
    exact .readFails _ i (U.call s op) (if_pos rfl) hr (.inr rfl))
    (by rw [put_self]; exact congrArg _ (if_pos rfl : (if i = i then _ else _) = _)) (if_pos rfl) (by rw [put_self]; rfl))
  rw [put_put, put_self, Option.toList_none, List.append_nil] at r5
  exact ⟨_, rfl, r5⟩

/-- Every goroutine a process of its own, all with a pool over the servers "a" and "b". -/
def tellers : Setup Bytes Op where
  call := fun s => textCall s
  kind := .text
  timeout := false
  proc := fun i => i
  method := poolProg realHashes id ab id id

/-- Two of them add one to the counter, and get errors. -/
def added : List (Ev Op) :=
  [.start 0 (.increment b!"x" 1 0), .finish 0 (.err .io), .start 1 (.increment b!"x" 1 0), .finish 1 (.err .io)]

/-- The counter was 41.  The first call fails after it was carried out: the counter is 42.  The second fails and returns
before it is carried out, and is carried out later: the counter is 43. -/
theorem C85_concrete : ∃ (p : Bytes → Bytes) (x y : State Bytes), FrailUse tellers realHashes id ab p (counters none) added x
    ∧ FrailUse tellers realHashes id ab p (counters none) added y
    ∧ (∃ e, (x.world (p b!"x")).find b!"x" = some e ∧ counterOf e.value = some 42)
    ∧ (∃ e, (y.world (p b!"x")).find b!"x" = some e ∧ counterOf e.value = some 43)
    ∧ (x.line 0 (p b!"x")).conn.ended = true ∧ (x.line 1 (p b!"x")).conn.ended = true ∧ (x.line 2 (p b!"x")).conn.ended = false := by
  obtain ⟨p, hx, -, h⟩ := C67_concrete [] (by simp) [] (by decide)
  have use : ∀ {x}, Run tellers (State.init (counters none)) added x → FrailUse tellers realHashes id ab p (counters none) added x := by
    intro x hr
    refine ⟨rfl, ⟨id, id, rfl⟩, h.pick, hr, ?_, fun _ => good_put _ _ (by decide), fun _ => (by decide : (2 : Nat) + 2 + 1 < 2 ^ 63)⟩
    intro i o hi
    simp only [added, Spec.Wired.starts, List.mem_cons, List.not_mem_nil, or_false, Prod.mk.injEq] at hi
    rcases hi with ⟨-, rfl⟩ | ⟨-, rfl⟩ <;> exact ⟨⟨by decide, by decide⟩, nofun⟩
  have hm : ∃ fin, tellers.method (.increment b!"x" 1 0) = .call b!"a" (.increment b!"x" 1 0) fin ∧ fin (.err .io) = .ret (.err .io) := by
    obtain ⟨fin, g1, -, g2, -⟩ := poolProg_one realHashes id ab id id (.increment b!"x" 1 0) b!"x" b!"a" rfl (by rw [h.pick, hx])
    exact ⟨fin, g1, g2 _⟩
  obtain ⟨fin, hm1, hm2⟩ := hm
  have hwire : (tellers.call b!"a" (.increment b!"x" 1 0)).wire = .ok b!"incr x 1\r\n" := by decide +kernel
  obtain ⟨st1, st2, hs1, ⟨e1, hd1, hx1, hv1⟩, hs2, e2, hd2, hx2, hv2⟩ : ∃ st1 st2, Mc.step (counters none b!"a") b!"incr x 1\r\n" = some (b!"42\r\n", st1, [])
      ∧ (∃ e, st1.data b!"x" = some e ∧ e.expiry = none ∧ counterOf e.value = some 42) ∧ Mc.step st1 b!"incr x 1\r\n" = some (b!"43\r\n", st2, [])
      ∧ ∃ e, st2.data b!"x" = some e ∧ e.expiry = none ∧ counterOf e.value = some 43 := by
    have key1 : ((Mc.step (counters none b!"a") b!"incr x 1\r\n").map fun y => (y.1, y.2.2, (y.2.1.data b!"x").map fun e => (e.expiry, counterOf e.value)))
        = some (b!"42\r\n", [], some (none, some 42)) := by decide +kernel
    have key2 : ((Mc.step (counters none b!"a") b!"incr x 1\r\n").bind fun y => (Mc.step y.2.1 b!"incr x 1\r\n").map fun z =>
        (z.1, z.2.2, (z.2.1.data b!"x").map fun e => (e.expiry, counterOf e.value)))
        = some (b!"43\r\n", [], some (none, some 43)) := by decide +kernel
    obtain ⟨y, h1, h2⟩ := Option.map_eq_some_iff.1 key1
    rw [h1, Option.bind_some] at key2
    obtain ⟨z, h3, h4⟩ := Option.map_eq_some_iff.1 key2
    simp only [Prod.mk.injEq] at h2 h4
    obtain ⟨e1, e2, e3⟩ := h2
    obtain ⟨e4, e5, e6⟩ := h4
    obtain ⟨u, g1, g2⟩ := Option.map_eq_some_iff.1 e3
    obtain ⟨v, g3, g4⟩ := Option.map_eq_some_iff.1 e6
    simp only [Prod.mk.injEq] at g2 g4
    exact ⟨y.2.1, z.2.1, by rw [h1, ← e1, ← e2], ⟨u, g1, g2⟩, by rw [h3, ← e4, ← e5], v, g3, g4⟩
  have r0 : Run tellers (State.init (counters none)) [] _ := .nil
  have r1 := r0.snoc (.start _ 0 (.increment b!"x" 1 0) rfl)
  obtain ⟨l0, hl0, r2⟩ := run_lost rfl r1 (i := 0) (by rw [← hm1]; rfl) rfl hwire hs1 (by decide +kernel)
  rw [hm2] at r2
  have r3 := r2.snoc (.finish _ 0 (.err .io) rfl)
  have r4 := r3.snoc (.start _ 1 (.increment b!"x" 1 0) rfl)
  obtain ⟨c1, hc1, hc2, r5⟩ := run_tardy rfl r4 (i := 1) (by rw [← hm1]; rfl) rfl hwire
  rw [hm2] at r5
  have r6 := r5.snoc (.finish _ 1 (.err .io) rfl)
  have r7 := r6.snoc (.serve _ 1 b!"a" b!"incr x 1\r\n" [] b!"43\r\n" [] st2 (by
    show (c1.sent).drop 0 = _
    rw [hc1]; rfl) (by exact hs2))
  refine ⟨p, _, _, use r6, use r7, ?_⟩
  rw [hx]
  exact ⟨⟨_, find_forever hd1 hx1, hv1⟩, ⟨_, find_forever hd2 hx2, hv2⟩, hl0, hc2, rfl⟩

/-- However such a run goes, `C85_counter` applies: the counter is from 41 to 43. -/
example (p : Bytes → Bytes) (x : State Bytes) (c : FrailUse tellers realHashes id ab p (counters none) added x) :
    ∃ e v, (x.world (p b!"x")).find b!"x" = some e ∧ counterOf e.value = some v ∧ 41 ≤ v ∧ v ≤ 43 := by
  obtain ⟨e, v, h1, h2, h3, h4, -⟩ := C85_counter c (k := b!"x") (e := ⟨b!"41", 0, none, 1⟩) (m := 41) rfl rfl (by decide +kernel) (fun i o hi => by
    simp only [added, Spec.Wired.starts, List.mem_cons, List.not_mem_nil, or_false, Prod.mk.injEq] at hi
    rcases hi with ⟨-, rfl⟩ | ⟨-, rfl⟩ <;> exact ⟨_, rfl⟩) (by decide +kernel)
  exact ⟨e, v, h1, h2, by omega, h4⟩

end Wired
end Verif
