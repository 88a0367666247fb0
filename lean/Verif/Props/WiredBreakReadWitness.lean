import Verif.Props.WiredBreakRead
import Verif.Props.WiredExactUse
/-!
C85, C86: reading what has been written, examples.
-/

namespace Verif
namespace Wired
open Kv Spec Mc Pool Cluster Props

theorem winner_done : ∀ {t : List (Ev Op)}, Spec.Wired.winners t ≠ [] → ∃ i, Ev.finish i (.ok .done) ∈ t := by
  intro t
  induction t with
  | nil => intro h; exact absurd rfl h
  | cons e t ih =>
    intro h
    by_cases hd : ∃ i, e = .finish i (.ok .done)
    · obtain ⟨i, rfl⟩ := hd
      exact ⟨i, .head _⟩
    · obtain ⟨i, hi⟩ := ih (by
        unfold Spec.Wired.winners at h
        split at h
        · next h' => cases h'
        · next h' => cases h'; exact absurd ⟨_, rfl⟩ hd
        · next h' => cases h'; exact h)
      exact ⟨i, .tail _ hi⟩

/-- Process 9 has lost its connection to "a".  Process 0 adds a key; when that has returned, process 1 gets it: it gets
the value. -/
theorem C85_read_concrete : ∃ (p : Bytes → Bytes) (tr : List (Ev Op)) (x : State Bytes),
    FrailUse tellers realHashes id ab p (counters none) tr x ∧ (x.line 9 b!"a").conn.ended = true ∧ (∀ i, x.prog i = none)
    ∧ ∃ it, Spec.Wired.ReadAfter tr b!"y" (.ok (.item it)) ∧ it.value = b!"1" := by
  obtain ⟨p, -, hy, h⟩ := C67_concrete [] (by simp) [] (by decide)
  generalize hadd : (Op.add { key := b!"y", value := b!"1" }) = o1
  have good : GoodOp o1 ∧ o1.key? ≠ none := by
    rw [← hadd]; exact ⟨⟨by decide, by decide, by decide, by decide⟩, nofun⟩
  have r0 : Run tellers (State.init (counters none)) [] _ := .nil
  have q1 := r0.snoc (.work _ 9 b!"a" _ (.hangUp _) fun _ => rfl)
  have q2 := q1.snoc (.start _ 0 o1 rfl)
  obtain ⟨x0, hr, he⟩ : ∃ x0, Run tellers (State.init (counters none)) [.start 0 o1] x0 ∧ ∀ q s, (x0.line q s).conn.ended = decide (q = 9 ∧ s = b!"a") := by
    refine ⟨_, q2, fun q s => ?_⟩
    show ((State.put _ 9 b!"a" _).line q s).conn.ended = _
    rw [put_line]
    by_cases e : q = 9 ∧ s = b!"a"
    · rw [if_pos e]; simp [e]
    · rw [if_neg e]; simp only [e, decide_false]; rfl
  have use : ∀ {tr x}, Run tellers (State.init (counters none)) tr x → (∀ i o, (i, o) ∈ Spec.Wired.starts tr → GoodOp o ∧ o.key? ≠ none) →
      (Spec.Wired.starts tr).length < 3 → FrailUse tellers realHashes id ab p (counters none) tr x := by
    intro tr x hr hk hl
    exact ⟨rfl, ⟨id, id, rfl⟩, h.pick, hr, hk, fun _ => good_put _ _ (by decide), fun _ => by
      show 2 + (Spec.Wired.starts tr).length + 1 < 2 ^ 63
      have : (2 : Nat) ^ 63 = 9223372036854775808 := by decide
      omega⟩
  have hio : ∀ {tr : List (Ev Op)} {x : State Bytes}, FrailUse tellers realHashes id ab p (counters none) tr x →
      (∀ q s, (x.line q s).conn.ended = decide (q = 9 ∧ s = b!"a")) → (∀ o, (9, o) ∉ Spec.Wired.starts tr) → ∀ i, .finish i (.err .io) ∉ tr := by
    intro tr x c he h9 i hi
    obtain ⟨o, k, g1, -, g⟩ := C85_error_broken c hi
    rw [he] at g
    have this : i = 9 := (of_decide_eq_true g).1
    exact h9 o (this ▸ g1)
  have c0 := use hr (fun i o h => by
    simp only [Spec.Wired.starts, List.mem_cons, List.not_mem_nil, or_false, Prod.mk.injEq] at h
    rw [h.2]; exact good) (by simp [Spec.Wired.starts])
  obtain ⟨⟨tr1, x1, c1, hs1, he1, hb1⟩, -⟩ := C85_pool_run_on c0
  have he1 : ∀ q s, (x1.line q s).conn.ended = decide (q = 9 ∧ s = b!"a") := fun q s => by rw [he1, he]
  have st1 : Spec.Wired.starts ([Ev.start 0 o1] ++ tr1) = [(0, o1)] := by rw [starts_append, hs1]; rfl
  have won := C85_lock_won c1 (k := b!"y") rfl (fun i o hi => by
    rw [st1] at hi
    simp only [List.mem_cons, List.not_mem_nil, or_false, Prod.mk.injEq] at hi
    exact ⟨_, hi.2.trans hadd.symm, rfl, rfl⟩) (by rw [st1]; nofun) hb1 (hio c1 he1 fun o h => by
      rw [st1] at h
      simp at h)
  have ch : Spec.Wired.Changed ([Ev.start 0 o1] ++ tr1) b!"y" := by
    obtain ⟨i, hi⟩ := winner_done (t := [Ev.start 0 o1] ++ tr1) fun h => by rw [h] at won; cases won
    obtain ⟨l, z, h1, h2, -⟩ := C85_pool c1
    obtain ⟨o, ho⟩ := (loose_answered (loose_run h1)).2 i _ (by rw [h2]; exact hi)
    rw [h2] at ho
    have hm : (i, o) ∈ Spec.Wired.starts ([Ev.start 0 o1] ++ tr1) := by
      obtain ⟨t1, t2, e, t3, t4, e', -⟩ := ho
      exact mem_starts.2 (by rw [e, e']; simp)
    rw [st1] at hm
    simp only [List.mem_cons, List.not_mem_nil, or_false, Prod.mk.injEq] at hm
    obtain ⟨rfl, rfl⟩ := hm
    exact ⟨0, o, _, ho, by rw [← hadd]; rfl, by rw [← hadd]; rfl⟩
  have q3 := c1.run.snoc (.start _ 1 (.get b!"y") (hb1 1))
  have hs2 : Spec.Wired.starts ([Ev.start 0 o1] ++ tr1 ++ [Ev.start 1 (.get b!"y")]) = [(0, o1), (1, .get b!"y")] := by
    rw [starts_append, st1]; rfl
  have c2 := use q3 (fun i o h => by
    have h : (i, o) ∈ Spec.Wired.starts ([Ev.start 0 o1] ++ tr1 ++ [Ev.start 1 (.get b!"y")]) := h
    rw [hs2] at h
    simp only [List.mem_cons, List.not_mem_nil, or_false, Prod.mk.injEq] at h
    rcases h with ⟨-, rfl⟩ | ⟨-, rfl⟩
    · exact good
    · exact ⟨(by decide : Key b!"y"), nofun⟩) (by
    show (Spec.Wired.starts ([Ev.start 0 o1] ++ tr1 ++ [Ev.start 1 (.get b!"y")])).length < 3
    rw [hs2]; exact (by decide : (2 : Nat) < 3))
  obtain ⟨⟨tr2, x2, c3, hs3, he3, hb3⟩, -⟩ := C85_pool_run_on c2
  have he3 : ∀ q s, (x2.line q s).conn.ended = decide (q = 9 ∧ s = b!"a") := fun q s => (he3 q s).trans (he1 q s)
  have c3 : FrailUse tellers realHashes id ab p (counters none) ([Ev.start 0 o1] ++ tr1 ++ [Ev.start 1 (.get b!"y")] ++ tr2) x2 := c3
  have hs4 : Spec.Wired.starts ([Ev.start 0 o1] ++ tr1 ++ [Ev.start 1 (.get b!"y")] ++ tr2) = [(0, o1), (1, .get b!"y")] := by
    rw [starts_append, hs2, hs3]; rfl
  have ht : [Ev.start 0 o1] ++ tr1 ++ [Ev.start 1 (.get b!"y")] ++ tr2 = ([Ev.start 0 o1] ++ tr1) ++ .start 1 (.get b!"y") :: tr2 := List.append_assoc _ _ _
  obtain ⟨t5, res, t6, e2, hn2⟩ := back_answered c3 hb3 ht
  have ra : Spec.Wired.ReadAfter ([Ev.start 0 o1] ++ tr1 ++ [Ev.start 1 (.get b!"y")] ++ tr2) b!"y" res :=
    ⟨[Ev.start 0 o1] ++ tr1, t5, t6, 1, by rw [ht, e2]; simp, hn2, ch⟩
  have hfin : Ev.finish 1 res ∈ [Ev.start 0 o1] ++ tr1 ++ [Ev.start 1 (.get b!"y")] ++ tr2 := by rw [ht, e2]; simp
  have st : ∀ i o, Ev.start i o ∈ [Ev.start 0 o1] ++ tr1 ++ [Ev.start 1 (.get b!"y")] ++ tr2 → o = o1 ∨ o = .get b!"y" := by
    intro i o h
    have := mem_starts.2 h
    rw [hs4] at this
    simp only [List.mem_cons, List.not_mem_nil, or_false, Prod.mk.injEq] at this
    exact this.imp And.right And.right
  refine ⟨p, _, x2, c3, by rw [he3]; rfl, hb3, ?_⟩
  rcases C85_read_after c3 (fun i o h hk hc => by
    rcases st i o h with rfl | rfl
    · subst hadd; exact .inl ⟨_, rfl, rfl⟩
    · cases hc) ra with h | h
  · subst h
    exact absurd hfin (hio c3 he3 (fun o h => by rw [hs4] at h; simp at h) 1)
  · rcases h with ⟨it, i, o, it', rfl, g1, g2, g3, g4, g5, -⟩ | ⟨-, i, g⟩
    · refine ⟨it, ra, ?_⟩
      rcases st i o g1 with rfl | rfl
      · subst hadd
        injection g3 with g3
        rw [g5, ← g3]
      · cases g3
    · rcases st i _ g with g | g
      · rw [← hadd] at g; cases g
      · cases g

end Wired

namespace Rewired
open Kv Spec Mc Pool Cluster Props
open Wired (Setup Ev tellers three three_of three_starts mem_starts winner_done)

/-- The connection of process 0 to "a" breaks and is replaced.  Three processes add a key; when they have returned, process
1 gets it: it gets a value that one of them has given. -/
theorem C86_read_concrete : ∃ (p : Bytes → Bytes) (tr : List (Ev Op)) (x : State Bytes),
    PatchedUse tellers realHashes id ab p (counters none) tr x ∧ successes (x.line 0 b!"a").conn.log = 1 ∧ (∀ i, x.prog i = none)
    ∧ ∃ it, Spec.Wired.ReadAfter tr b!"y" (.ok (.item it)) ∧ (it.value = b!"me" ∨ it.value = b!"you") := by
  obtain ⟨p, -, hy, h⟩ := C67_concrete [] (by simp) [] (by decide)
  generalize hf : (fun i : Nat => Op.add { key := b!"y", value := if i = 0 then b!"me" else b!"you" }) = f
  have e : ∀ i, f i = Op.add { key := b!"y", value := if i = 0 then b!"me" else b!"you" } := fun i => by rw [← hf]
  have good : ∀ i, GoodOp (f i) := fun i => by
    rw [e]
    by_cases h0 : i = 0
    · rw [if_pos h0]; exact ⟨by decide, by decide, by decide, by decide⟩
    · rw [if_neg h0]; exact ⟨by decide, by decide, by decide, by decide⟩
  obtain ⟨tr', x1, c1, hs, hback, whole, hio, -, h9⟩ := three_again f b!"y" good (fun i => by rw [e]; rfl) h.pick
  have st := three_starts f hs
  generalize three f ++ tr' = tr1 at *
  have won := C86_lock_won c1 (k := b!"y") rfl (fun i o hi => by
    rw [st] at hi
    rw [(three_of hi).1, e]
    exact ⟨_, rfl, rfl, rfl⟩) (by rw [st]; nofun) hback.1 hio
  have st1 : ∀ i o, Ev.start i o ∈ tr1 → ∃ j, o = f j := fun i o hi => by
    have := mem_starts.2 hi
    rw [st] at this
    exact ⟨i, (three_of this).1⟩
  have ch : Spec.Wired.Changed tr1 b!"y" := by
    obtain ⟨i, hi⟩ := winner_done (t := tr1) fun h => by rw [h] at won; cases won
    obtain ⟨l, z, h1, h2, -⟩ := C86_pool c1
    obtain ⟨o, ho⟩ := (Wired.loose_answered (forget_run h1)).2 i _ (by rw [h2]; exact hi)
    rw [h2] at ho
    have hm : Ev.start i o ∈ tr1 := by
      obtain ⟨t1, t2, e, t3, t4, e', -⟩ := ho
      rw [e, e']; simp
    obtain ⟨j, rfl⟩ := st1 i o hm
    exact ⟨i, f j, _, ho, by rw [e]; rfl, by rw [e]; rfl⟩
  have q3 := c1.run.snoc (.start _ 1 (.get b!"y") (hback.1 1))
  have q4 := (Run.nil (U := tellers) (w0 := x1)).snoc (.start _ 1 (.get b!"y") (hback.1 1))
  obtain ⟨x2, q3, q4, hl2⟩ : ∃ x2, Run tellers (State.init (counters none)) (tr1 ++ [.start 1 (.get b!"y")]) x2
      ∧ Run tellers x1 [.start 1 (.get b!"y")] x2 ∧ x2.line = x1.line := ⟨_, q3, q4, rfl⟩
  have s2 : Spec.Wired.starts (tr1 ++ [Ev.start 1 (.get b!"y")]) = [(0, f 0), (1, f 1), (2, f 2), (1, .get b!"y")] := by
    rw [Wired.starts_append, st]; rfl
  have c2 : PatchedUse tellers realHashes id ab p (counters none) (tr1 ++ [.start 1 (.get b!"y")]) x2 := by
    refine ⟨rfl, ⟨id, id, rfl⟩, h.pick, q3, fun i o h => ?_, fun _ => good_put _ _ (by decide), fun _ => ?_⟩
    · rw [s2] at h
      simp only [List.mem_cons, List.not_mem_nil, or_false, Prod.mk.injEq] at h
      rcases h with ⟨-, rfl⟩ | ⟨-, rfl⟩ | ⟨-, rfl⟩ | ⟨-, rfl⟩
      · exact ⟨good 0, by rw [e]; nofun⟩
      · exact ⟨good 1, by rw [e]; nofun⟩
      · exact ⟨good 2, by rw [e]; nofun⟩
      · exact ⟨(by decide : Key b!"y"), nofun⟩
    · rw [s2]; exact (by decide : (2 : Nat) + 4 + 1 < 2 ^ 63)
  have quiet : ∀ q s t, ¬ Spec.Rewired.Reconnecting x2 q s t := fun q s t h => hback.2 q s t (by
    unfold Spec.Rewired.Reconnecting at h ⊢
    rwa [hl2] at h)
  obtain ⟨⟨tr2, x3, r3, c3, hs3, -, h5, hb3⟩, -⟩ := C86_pool_run_on c2
  have ht : tr1 ++ [Ev.start 1 (.get b!"y")] ++ tr2 = tr1 ++ .start 1 (.get b!"y") :: tr2 := List.append_assoc _ _ _
  obtain ⟨t5, res, t6, e2, hn2⟩ := back_answered c3 hb3.1 ht
  have ra : Spec.Wired.ReadAfter (tr1 ++ [Ev.start 1 (.get b!"y")] ++ tr2) b!"y" res :=
    ⟨tr1, t5, t6, 1, by rw [ht, e2]; simp, hn2, ch⟩
  have ns : res ≠ .err .io := fun hr => by
    rw [ht] at c3
    have hfin : Ev.finish 1 (.err .io) ∈ Ev.start 1 (.get b!"y") :: tr2 := by rw [e2, ← hr]; simp
    obtain ⟨o, k', -, -, g3⟩ := C86_error_broken (tr1 := tr1) (tr2 := Ev.start 1 (.get b!"y") :: tr2) c3 c1.run (q4.trans r3) (hback.1 1) hfin
    obtain ⟨e1, e2⟩ := h5 (tellers.proc 1) (p k') (quiet _ _)
    rcases g3 with g | g
    · refine whole _ _ (?_ : Broken x1 (tellers.proc 1) (p k'))
      have := e1.1 g
      unfold Broken at this ⊢
      rwa [hl2] at this
    · rw [e2, hl2] at g; exact Nat.lt_irrefl _ g
  have st3 : ∀ i o, Ev.start i o ∈ tr1 ++ [Ev.start 1 (.get b!"y")] ++ tr2 → (∃ j, o = f j) ∨ o = .get b!"y" := by
    intro i o h
    have := mem_starts.2 h
    rw [Wired.starts_append, hs3, s2] at this
    simp only [List.append_nil, List.mem_cons, List.not_mem_nil, or_false, Prod.mk.injEq] at this
    rcases this with ⟨-, g⟩ | ⟨-, g⟩ | ⟨-, g⟩ | ⟨-, g⟩
    · exact .inl ⟨0, g⟩
    · exact .inl ⟨1, g⟩
    · exact .inl ⟨2, g⟩
    · exact .inr g
  refine ⟨p, _, x3, c3, by rw [(h5 0 b!"a" (quiet _ _)).2, hl2]; exact h9, hb3.1, ?_⟩
  rcases C86_read_after c3 (fun i o h hk hc => by
    rcases st3 i o h with ⟨j, rfl⟩ | rfl
    · rw [e]; exact .inl ⟨_, rfl, rfl⟩
    · cases hc) ra with h | h
  · exact absurd h ns
  · rcases h with ⟨it, i, o, it', rfl, g1, g2, g3, g4, g5, -⟩ | ⟨-, i, g⟩
    · refine ⟨it, ra, ?_⟩
      rcases st3 i o g1 with ⟨j, rfl⟩ | rfl
      · rw [e] at g3
        injection g3 with g3
        rw [g5, ← g3]
        show (if j = 0 then b!"me" else b!"you") = _ ∨ _
        by_cases h0 : j = 0
        · rw [if_pos h0]; exact .inl rfl
        · rw [if_neg h0]; exact .inr rfl
      · cases g3
    · rcases st3 i _ g with ⟨j, g⟩ | g
      · rw [e] at g; cases g
      · cases g

end Rewired
end Verif
