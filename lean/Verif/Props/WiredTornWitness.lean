import Verif.Props.WiredRead
import Verif.Props.WiredUse
import Verif.Props.WiredBreakWitness
/-!
C87: examples.
-/

namespace Verif
namespace Wired
open Kv Spec Mc Pool Cluster Props

/-- Every goroutine a process of its own, all with a replica pool: primaries "a" and "b", secondary "c". -/
def sites : Setup Bytes Op where
  call := fun _ => metaCall
  kind := .metap
  timeout := false
  proc := fun i => i
  method := replicaProg realHashes abc

/-- A Set fails. -/
def failed : List (Ev Op) := [.start 0 (.set { key := b!"x", value := b!"1" }), .finish 0 (.err .io)]

/-- Two keys are set. -/
def both : List (Ev Op) := [.start 0 (.set { key := b!"x", value := b!"1" }), .start 1 (.set { key := b!"y", value := b!"2" })]

theorem set_plain {k v : Bytes} (hk : Key k) (hv : v.length ≤ maxValue) : PlainOp (.set { key := k, value := v }) :=
  ⟨⟨⟨hk, hv, (by decide : InRange 32 0), (by decide : (0 : Nat) < 2 ^ 64)⟩, by simp⟩, rfl⟩

theorem set_prog {H : Hashes} {r : ReplicaPool Bytes} {it : Item} {s : Bytes} (h : r.primary.pick H it.key = .ok s) :
    ∃ fin, replicaProg H r (.set it) = .call s (.set it) fin := by
  simp only [replicaProg, twoCalls, h, onPick]
  exact ⟨_, rfl⟩

/-- A Set fails because the connection to the primary breaks.  Either it has been carried out there: the primary has
the new value and the secondary has not (`x`); or it has not: neither has (`y`); and then it may be carried out by the
primary after the Set has returned (`z`).  And with the connection of process 0 to the secondary broken, two Sets, one
by process 0, return, and process 1 gets no error. -/
theorem C87_concrete : ∃ p q : Bytes → Bytes, p b!"x" = b!"a" ∧ q b!"x" = b!"c"
    ∧ (∃ x, TornUse sites realHashes id [b!"a", b!"b"] [b!"c"] abc p q empties failed x
      ∧ LeavesBehind b!"x" (.set { key := b!"x", value := b!"1" }) (x.world b!"a") ∧ (x.world b!"c").find b!"x" = none)
    ∧ (∃ y, TornUse sites realHashes id [b!"a", b!"b"] [b!"c"] abc p q empties failed y
      ∧ (y.world b!"a").find b!"x" = none ∧ (y.world b!"c").find b!"x" = none)
    ∧ (∃ z, TornUse sites realHashes id [b!"a", b!"b"] [b!"c"] abc p q empties failed z
      ∧ LeavesBehind b!"x" (.set { key := b!"x", value := b!"1" }) (z.world b!"a") ∧ (z.world b!"c").find b!"x" = none
      ∧ (z.line 0 b!"c").conn.ended = false)
    ∧ ∃ tr x, TornUse sites realHashes id [b!"a", b!"b"] [b!"c"] abc p q empties (both ++ tr) x ∧ Spec.Wired.starts tr = []
      ∧ Spec.Wired.AllBack x ∧ (∀ o, ¬ Spec.Wired.Answered (both ++ tr) 1 o (.err .io)) ∧ (x.line 0 b!"c").conn.ended = true := by
  have hpick : ∀ k, ∃ z : Bytes × Bytes, abc.primary.pick realHashes k = .ok z.1 ∧ abc.secondary.pick realHashes k = .ok z.2 := fun k => by
    obtain ⟨p, q, hp, hq⟩ := abc_rings.picks k
    exact ⟨(p, q), hp, hq⟩
  obtain ⟨f, hf⟩ := Classical.axiomOfChoice hpick
  have hx : (f b!"x").1 = b!"a" := by
    have := (hf b!"x").1
    rw [abc_a] at this
    injection this with this
    exact this.symm
  have hc : ∀ k, (f k).2 = b!"c" := fun k => by
    have := (hf k).2
    rw [abc_c] at this
    injection this with this
    exact this.symm
  have use : ∀ {x}, Run sites (State.init empties) failed x →
      TornUse sites realHashes id [b!"a", b!"b"] [b!"c"] abc (fun k => (f k).1) (fun k => (f k).2) empties failed x := by
    intro x hr
    refine ⟨rfl, rfl, abc_rings, fun k => (hf k).1, fun k => (hf k).2, hr, fun i o h => ?_, empties_healthy _ (by decide)⟩
    simp only [failed, List.mem_cons, List.not_mem_nil, or_false, Ev.start.injEq] at h
    rcases h with ⟨-, rfl⟩ | h
    · exact set_plain (by decide) (by decide)
    · cases h
  obtain ⟨fin, hm1⟩ : ∃ fin, sites.method (.set { key := b!"x", value := b!"1" }) = .call b!"a" (.set { key := b!"x", value := b!"1" }) fin :=
    set_prog abc_a
  have hm2 : fin (.err .io) = .ret (.err .io) := first_err (H := realHashes) (r := abc) (p := fun k => (f k).1) (fun k => (hf k).1) (o := .set { key := b!"x", value := b!"1" }) hm1 _
  have hwire : (sites.call b!"a" (.set { key := b!"x", value := b!"1" })).wire = .ok b!"ms x 1 T0\r\n1\r\n" := by decide +kernel
  obtain ⟨st, hst, e, hd, he⟩ : ∃ st, Mc.step (empties b!"a") b!"ms x 1 T0\r\n1\r\n" = some (b!"HD\r\n", st, [])
      ∧ ∃ e, st.data b!"x" = some e ∧ e.value = b!"1" ∧ e.flags = 0 ∧ e.expiry = none := by
    have key1 : ((Mc.step (empties b!"a") b!"ms x 1 T0\r\n1\r\n").map fun y => (y.1, y.2.2)) = some (b!"HD\r\n", []) := by decide +kernel
    have key2 : ((Mc.step (empties b!"a") b!"ms x 1 T0\r\n1\r\n").bind fun y => (y.2.1.data b!"x").map fun e => (e.value, e.flags, e.expiry))
        = some (b!"1", 0, none) := by decide +kernel
    obtain ⟨y, h1, h2⟩ := Option.map_eq_some_iff.1 key1
    rw [h1, Option.bind_some] at key2
    simp only [Prod.mk.injEq] at h2
    obtain ⟨e1, e2⟩ := h2
    obtain ⟨u, g1, g2⟩ := Option.map_eq_some_iff.1 key2
    simp only [Prod.mk.injEq] at g2
    exact ⟨y.2.1, by rw [h1, ← e1, ← e2], u, g1, g2⟩
  have hleft : LeavesBehind b!"x" (.set { key := b!"x", value := b!"1" }) st :=
    .inl ⟨_, e, rfl, find_forever hd he.2.2, he.1, he.2.1, he.2.2⟩
  have r0 : Run sites (State.init empties) [] _ := .nil
  have r1 := r0.snoc (.start _ 0 (.set { key := b!"x", value := b!"1" }) rfl)
  have ax : ∃ x, Run sites (State.init empties) failed x ∧ x.world b!"a" = st ∧ x.world b!"c" = empties b!"c" := by
    obtain ⟨l0, hl0, r2⟩ := run_lost rfl r1 (i := 0) (by rw [← hm1]; rfl) rfl hwire hst (by decide +kernel)
    rw [hm2] at r2
    exact ⟨_, r2.snoc (.finish _ 0 (.err .io) rfl), rfl, rfl⟩
  have ay : ∃ y z, Run sites (State.init empties) failed y ∧ y.world = empties ∧ Run sites (State.init empties) failed z
      ∧ z.world b!"a" = st ∧ z.world b!"c" = empties b!"c" ∧ (z.line 0 b!"c").conn.ended = false := by
    obtain ⟨c1, hc1, hc2, r2⟩ := run_tardy rfl r1 (i := 0) (by rw [← hm1]; rfl) rfl hwire
    rw [hm2] at r2
    have r3 := r2.snoc (.finish _ 0 (.err .io) rfl)
    have r4 := r3.snoc (.serve _ 0 b!"a" b!"ms x 1 T0\r\n1\r\n" [] b!"HD\r\n" [] st (by
      show (c1.sent).drop 0 = _
      rw [hc1]; rfl) (by exact hst))
    exact ⟨_, _, r3, rfl, r4, rfl, rfl, rfl⟩
  obtain ⟨x, rx, hx1, hx2⟩ := ax
  obtain ⟨y, z, ry, hy, rz, hz1, hz2, hz3⟩ := ay
  refine ⟨fun k => (f k).1, fun k => (f k).2, hx, hc _, ⟨x, use rx, by rw [hx1]; exact hleft, by rw [hx2]; rfl⟩,
    ⟨y, use ry, by rw [hy]; rfl, by rw [hy]; rfl⟩, ⟨z, use rz, by rw [hz1]; exact hleft, by rw [hz2]; rfl, hz3⟩, ?_⟩
  have q1 := r0.snoc (.work _ 0 b!"c" _ (.hangUp _) fun _ => rfl)
  have q2 := q1.snoc (.start _ 0 (.set { key := b!"x", value := b!"1" }) rfl)
  have q3 := q2.snoc (.start _ 1 (.set { key := b!"y", value := b!"2" }) rfl)
  obtain ⟨x0, hr, he⟩ : ∃ x0, Run sites (State.init empties) both x0 ∧ ∀ q s, (x0.line q s).conn.ended = decide (q = 0 ∧ s = b!"c") := by
    refine ⟨_, q3, fun q s => ?_⟩
    show ((State.put _ 0 b!"c" _).line q s).conn.ended = _
    rw [put_line]
    by_cases e : q = 0 ∧ s = b!"c"
    · rw [if_pos e]; simp [e]
    · rw [if_neg e]; simp only [e, decide_false]; rfl
  have c0 : TornUse sites realHashes id [b!"a", b!"b"] [b!"c"] abc (fun k => (f k).1) (fun k => (f k).2) empties both x0 := by
    refine ⟨rfl, rfl, abc_rings, fun k => (hf k).1, fun k => (hf k).2, hr, fun i o h => ?_, empties_healthy _ (by decide)⟩
    simp only [both, List.mem_cons, List.not_mem_nil, or_false, Ev.start.injEq] at h
    rcases h with ⟨-, rfl⟩ | ⟨-, rfl⟩ <;> exact set_plain (by decide) (by decide)
  obtain ⟨⟨tr, x', h1, h2, h3, h4⟩, -⟩ := C87_run_on c0
  refine ⟨tr, x', h1, h2, h4, fun o ho => ?_, by rw [h3, he]; rfl⟩
  obtain ⟨k, -, g⟩ := C87_error_broken h1 ho
  rw [h3, he, h3, he] at g
  have ne : sites.proc 1 ≠ 0 := by decide
  rcases g with g | ⟨g, -⟩ <;> exact ne (of_decide_eq_true g).1

/-- Process 9 has lost its connections.  Process 0 sets a key; when that has returned, process 1 gets it: it gets the
value. -/
theorem C87_read_concrete : ∃ (p q : Bytes → Bytes) (tr : List (Ev Op)) (x : State Bytes),
    TornUse sites realHashes id [b!"a", b!"b"] [b!"c"] abc p q empties tr x ∧ (x.line 9 b!"a").conn.ended = true
    ∧ Spec.Wired.AllBack x ∧ ∃ it, Spec.Wired.ReadAfter tr b!"x" (.ok (.item it)) ∧ it.value = b!"1" := by
  have hpick : ∀ k, ∃ z : Bytes × Bytes, abc.primary.pick realHashes k = .ok z.1 ∧ abc.secondary.pick realHashes k = .ok z.2 := fun k => by
    obtain ⟨p, q, hp, hq⟩ := abc_rings.picks k
    exact ⟨(p, q), hp, hq⟩
  obtain ⟨f, hf⟩ := Classical.axiomOfChoice hpick
  generalize hset : (Op.set { key := b!"x", value := b!"1" }) = o1
  have hp1 : PlainOp o1 := by rw [← hset]; exact set_plain (by decide) (by decide)
  have r0 : Run sites (State.init empties) [] _ := .nil
  have q1 := r0.snoc (.work _ 9 b!"a" _ (.hangUp _) fun _ => rfl)
  have q2 := q1.snoc (.start _ 0 o1 rfl)
  obtain ⟨x0, hr, he⟩ : ∃ x0, Run sites (State.init empties) [.start 0 o1] x0 ∧ ∀ q s, (x0.line q s).conn.ended = decide (q = 9 ∧ s = b!"a") := by
    refine ⟨_, q2, fun q s => ?_⟩
    show ((State.put _ 9 b!"a" _).line q s).conn.ended = _
    rw [put_line]
    by_cases e : q = 9 ∧ s = b!"a"
    · rw [if_pos e]; simp [e]
    · rw [if_neg e]; simp only [e, decide_false]; rfl
  have use : ∀ {tr x}, Run sites (State.init empties) tr x → (∀ i o, (i, o) ∈ Spec.Wired.starts tr → PlainOp o) → (Spec.Wired.starts tr).length < 3 →
      TornUse sites realHashes id [b!"a", b!"b"] [b!"c"] abc (fun k => (f k).1) (fun k => (f k).2) empties tr x := by
    intro tr x hr hk hl
    exact ⟨rfl, rfl, abc_rings, fun k => (hf k).1, fun k => (hf k).2, hr, fun i o h => hk i o (mem_starts.2 h), empties_healthy _ (by
      have : (2 : Nat) ^ 62 = 4611686018427387904 := by decide
      omega)⟩
  have hio : ∀ {tr : List (Ev Op)} {x : State Bytes}, TornUse sites realHashes id [b!"a", b!"b"] [b!"c"] abc (fun k => (f k).1) (fun k => (f k).2) empties tr x →
      (∀ q s, (x.line q s).conn.ended = decide (q = 9 ∧ s = b!"a")) → ∀ i o, i ≠ 9 → ¬ Spec.Wired.Answered tr i o (.err .io) := by
    intro tr x c he i o hi ho
    obtain ⟨k, -, g⟩ := C87_error_broken c ho
    rw [he, he] at g
    rcases g with g | ⟨g, -⟩ <;> exact hi (of_decide_eq_true g).1
  have c0 := use hr (fun i o h => by
    simp only [Spec.Wired.starts, List.mem_cons, List.not_mem_nil, or_false, Prod.mk.injEq] at h
    rw [h.2]; exact hp1) (by simp [Spec.Wired.starts])
  obtain ⟨⟨tr1, x1, c1, hs1, he1, hb1⟩, -⟩ := C87_run_on c0
  have he1 : ∀ q s, (x1.line q s).conn.ended = decide (q = 9 ∧ s = b!"a") := fun q s => by rw [he1, he]
  obtain ⟨t3, res, t4, e1, hn⟩ := answered_back c1 hb1 (t1 := []) (t2 := tr1) rfl
  have a1 : Spec.Wired.Answered ([Ev.start 0 o1] ++ tr1) 0 o1 res :=
    ⟨.start 0 o1 :: t3, t4, by rw [e1]; rfl, [], t3, rfl, hn⟩
  have ok1 : res = .ok .done := by
    rcases C87_results c1 a1 with h | ⟨st, h⟩
    · subst h; exact absurd a1 (hio c1 he1 _ _ (by decide))
    · subst hset
      rcases h with h | ⟨h, -⟩
      · rw [h]
        exact copies_done (.inl ⟨_, rfl, hp1.1, rfl⟩) st
      · exact h.elim
  subst ok1
  have ch : Spec.Wired.Changed ([Ev.start 0 o1] ++ tr1) b!"x" := ⟨0, o1, _, a1, by rw [← hset]; rfl, by rw [← hset]; rfl⟩
  have q3 := c1.run.snoc (.start _ 1 (.get b!"x") (hb1 1))
  have hs2 : Spec.Wired.starts ([Ev.start 0 o1] ++ tr1 ++ [Ev.start 1 (.get b!"x")]) = [(0, o1), (1, .get b!"x")] := by
    rw [starts_append, starts_append, hs1]; rfl
  have c2 := use q3 (fun i o h => by
    have h : (i, o) ∈ Spec.Wired.starts ([Ev.start 0 o1] ++ tr1 ++ [Ev.start 1 (.get b!"x")]) := h
    rw [hs2] at h
    simp only [List.mem_cons, List.not_mem_nil, or_false, Prod.mk.injEq] at h
    rcases h with ⟨-, rfl⟩ | ⟨-, rfl⟩
    · exact hp1
    · exact (by decide : Key b!"x")) (by
    show (Spec.Wired.starts ([Ev.start 0 o1] ++ tr1 ++ [Ev.start 1 (.get b!"x")])).length < 3
    rw [hs2]; exact (by decide : (2 : Nat) < 3))
  obtain ⟨⟨tr2, x2, c3, hs3, he3, hb3⟩, -⟩ := C87_run_on c2
  have he3 : ∀ q s, (x2.line q s).conn.ended = decide (q = 9 ∧ s = b!"a") := fun q s => (he3 q s).trans (he1 q s)
  have c3 : TornUse sites realHashes id [b!"a", b!"b"] [b!"c"] abc (fun k => (f k).1) (fun k => (f k).2) empties
    ([Ev.start 0 o1] ++ tr1 ++ [Ev.start 1 (.get b!"x")] ++ tr2) x2 := c3
  have ht : [Ev.start 0 o1] ++ tr1 ++ [Ev.start 1 (.get b!"x")] ++ tr2 = ([Ev.start 0 o1] ++ tr1) ++ .start 1 (.get b!"x") :: tr2 := List.append_assoc _ _ _
  obtain ⟨t5, res, t6, e2, hn2⟩ := answered_back c3 hb3 ht
  have ra : Spec.Wired.ReadAfter ([Ev.start 0 o1] ++ tr1 ++ [Ev.start 1 (.get b!"x")] ++ tr2) b!"x" res :=
    ⟨[Ev.start 0 o1] ++ tr1, t5, t6, 1, by rw [ht, e2]; simp, hn2, ch⟩
  have a2 : Spec.Wired.Answered ([Ev.start 0 o1] ++ tr1 ++ [Ev.start 1 (.get b!"x")] ++ tr2) 1 (.get b!"x") res :=
    ⟨([Ev.start 0 o1] ++ tr1) ++ .start 1 (.get b!"x") :: t5, t6, by rw [ht, e2]; simp, _, t5, rfl, hn2⟩
  have st : ∀ i o, Ev.start i o ∈ [Ev.start 0 o1] ++ tr1 ++ [Ev.start 1 (.get b!"x")] ++ tr2 → o = o1 ∨ o = .get b!"x" := by
    intro i o h
    have := mem_starts.2 h
    rw [starts_append, hs2, hs3] at this
    simp only [List.append_nil, List.mem_cons, List.not_mem_nil, or_false, Prod.mk.injEq] at this
    exact this.imp And.right And.right
  refine ⟨_, _, _, x2, c3, by rw [he3]; rfl, hb3, ?_⟩
  rcases C87_read_after c3 (fun i o h hk hc => by
    rcases st i o h with rfl | rfl
    · subst hset; exact .inl ⟨_, rfl, rfl⟩
    · cases hc) ra with h | h
  · subst h; exact absurd a2 (hio c3 he3 _ _ (by decide))
  · rcases h with ⟨it, i, o, it', rfl, g1, g2, g3, g4, g5, -⟩ | ⟨-, i, g⟩
    · refine ⟨it, ra, ?_⟩
      rcases st i o g1 with rfl | rfl
      · subst hset
        injection g3 with g3
        rw [g5, ← g3]
      · cases g3
    · rcases st i _ g with g | g
      · rw [← hset] at g; cases g
      · cases g

end Wired
end Verif
