import Verif.Props.WiredTornUse
import Verif.Props.WiredTornFound
import Verif.Props.RewiredReplicaWitness
import Verif.Props.WiredExactUse
/-!
C87: a counter and a lock, examples.
-/

namespace Verif
namespace Wired
open Kv Spec Mc Pool Cluster Props

/-- The connection of process 9 to "a" breaks; three goroutines, each of its own process, call a method each, and go on to
the end. -/
theorem three_replicas (w : World Bytes) (hw : Healthy w 9) (f : Nat → Op) (hf : ∀ i, PlainOp (f i)) :
    ∃ (p q : Bytes → Bytes) (tr' : List (Ev Op)) (x : State Bytes),
      TornUse sites realHashes id [b!"a", b!"b"] [b!"c"] abc p q w (three f ++ tr') x ∧ Spec.Wired.starts tr' = [] ∧ (∀ i, x.prog i = none)
      ∧ (∀ i o, ¬ Spec.Wired.Answered (three f ++ tr') i o (.err .io)) ∧ (x.line 9 b!"a").conn.ended = true := by
  have hpick : ∀ k, ∃ z : Bytes × Bytes, abc.primary.pick realHashes k = .ok z.1 ∧ abc.secondary.pick realHashes k = .ok z.2 := fun k => by
    obtain ⟨p, q, hp, hq⟩ := abc_rings.picks k
    exact ⟨(p, q), hp, hq⟩
  obtain ⟨g, hg⟩ := Classical.axiomOfChoice hpick
  have r0 : Run sites (State.init w) [] _ := .nil
  have r1 := r0.snoc (.work _ 9 b!"a" _ (.hangUp _) fun _ => rfl)
  have r2 := r1.snoc (.start _ 0 (f 0) rfl)
  have r3 := r2.snoc (.start _ 1 (f 1) rfl)
  have r4 := r3.snoc (.start _ 2 (f 2) rfl)
  obtain ⟨x0, hr, he⟩ : ∃ x0, Run sites (State.init w) (three f) x0 ∧ ∀ q s, (x0.line q s).conn.ended = decide (q = 9 ∧ s = b!"a") := by
    refine ⟨_, r4, fun q s => ?_⟩
    show ((State.put _ 9 b!"a" _).line q s).conn.ended = _
    rw [put_line]
    by_cases e : q = 9 ∧ s = b!"a"
    · rw [if_pos e]; simp [e]
    · rw [if_neg e]; simp only [e, decide_false]; rfl
  have c : TornUse sites realHashes id [b!"a", b!"b"] [b!"c"] abc (fun k => (g k).1) (fun k => (g k).2) w (three f) x0 := by
    refine ⟨rfl, rfl, abc_rings, fun k => (hg k).1, fun k => (hg k).2, hr, fun i o hi => ?_, hw⟩
    obtain ⟨rfl, -⟩ := three_of (mem_starts.2 hi)
    exact hf i
  obtain ⟨⟨tr', x, h1, h2, h3, h4⟩, -⟩ := C87_run_on c
  refine ⟨_, _, tr', x, h1, h2, h4, fun i o hi => ?_, by rw [h3, he]; rfl⟩
  obtain ⟨k, -, g3⟩ := C87_error_broken h1 hi
  have hs : (i, o) ∈ Spec.Wired.starts (three f ++ tr') := by
    obtain ⟨t1, t2, e, t3, t4, e', -⟩ := hi
    exact mem_starts.2 (by rw [e, e']; simp)
  rw [three_starts f h2] at hs
  obtain ⟨-, hs⟩ := three_of hs
  rw [h3, h3, he, he] at g3
  have : i = 9 := by
    rcases g3 with g3 | ⟨g3, -⟩ <;> exact (of_decide_eq_true g3).1
  omega

/-- Three processes count from 41; the counter ends at 44. -/
theorem C87_counter_concrete : ∃ (p q : Bytes → Bytes) (tr' : List (Ev Op)) (x : State Bytes),
    TornUse sites realHashes id [b!"a", b!"b"] [b!"c"] abc p q (counters none) (three (fun _ => .increment b!"x" 1 0) ++ tr') x
    ∧ (x.line 9 b!"a").conn.ended = true
    ∧ ∃ e', (x.world (p b!"x")).find b!"x" = some e' ∧ counterOf e'.value = some 44 := by
  obtain ⟨p, q, tr', x, c, hs, hback, hio, h9⟩ := three_replicas (counters none) (counters_healthy none (by simp) 9 (by decide))
    (fun _ => .increment b!"x" 1 0) fun _ => by exact (by decide : Key b!"x" ∧ InRange 64 1)
  have st := three_starts (fun _ => Op.increment b!"x" 1 0) hs
  obtain ⟨e', v, g1, g2, -, -, -, -, -, g3⟩ := C87_counter (k := b!"x") (e := ⟨b!"41", 0, none, 1⟩) (m := 41) c rfl rfl (by decide +kernel)
    (fun i o hi => by rw [st] at hi; exact ⟨0, (three_of (f := fun _ => Op.increment b!"x" 1 0) hi).1⟩) (by rw [st]; decide)
  have g4 := g3 hback fun i hi => by
    obtain ⟨l, z, h1, h2, -⟩ := C87_pool c
    obtain ⟨o, ho⟩ := (torn_answered h1).2 i _ (by rw [h2]; exact hi)
    rw [h2] at ho
    exact hio i o ho
  rw [st] at g4
  exact ⟨p, q, tr', x, c, h9, e', g1, by rw [g2, g4]; rfl⟩

/-- One process reads, another counts, a third replaces: none misses the key. -/
theorem C87_found_concrete : ∃ (p q : Bytes → Bytes) (f : Nat → Op) (tr' : List (Ev Op)) (x : State Bytes),
    TornUse sites realHashes id [b!"a", b!"b"] [b!"c"] abc p q (counters none) (three f ++ tr') x
    ∧ (x.line 9 b!"a").conn.ended = true ∧ (∀ i, x.prog i = none)
    ∧ f 0 = .get b!"x" ∧ f 1 = .increment b!"x" 1 0 ∧ f 2 = .replace { key := b!"x", value := b!"7" }
    ∧ ∀ i o r, Spec.Wired.Answered (three f ++ tr') i o r → r ≠ .err .itemNotFound ∧ r ≠ .err .io := by
  generalize hf : (fun i : Nat => if i = 0 then Op.get b!"x" else if i = 1 then .increment b!"x" 1 0 else .replace { key := b!"x", value := b!"7" }) = f
  have e0 : ∀ i, f i = .get b!"x" ∨ f i = .increment b!"x" 1 0 ∨ f i = .replace { key := b!"x", value := b!"7" } := fun i => by
    rw [← hf]
    dsimp only
    split
    · exact .inl rfl
    · split
      · exact .inr (.inl rfl)
      · exact .inr (.inr rfl)
  have hplain : ∀ i, PlainOp (f i) := fun i => by
    rcases e0 i with e | e | e <;> rw [e]
    · exact (by decide : Key b!"x")
    · exact (by decide : Key b!"x" ∧ InRange 64 1)
    · exact ⟨⟨⟨(by decide : Key b!"x"), (by decide : (1 : Nat) ≤ maxValue), (by decide : InRange 32 0), (by decide : (0 : Nat) < 2 ^ 64)⟩, by simp⟩, rfl⟩
  obtain ⟨p, q, tr', x, c, hs, hback, hio, h9⟩ := three_replicas (counters none) (counters_healthy none (by simp) 9 (by decide)) f hplain
  have st := three_starts f hs
  have one : ∀ i o, (i, o) ∈ Spec.Wired.starts (three f ++ tr') → o.key? = some b!"x" ∧ Retains o := fun i o hi => by
    rw [st] at hi
    rw [(three_of hi).1]
    rcases e0 i with e | e | e <;> rw [e]
    · exact ⟨rfl, .inr (.inl ⟨_, rfl⟩)⟩
    · exact ⟨rfl, .inr (.inr (.inl ⟨_, _, _, rfl⟩))⟩
    · exact ⟨rfl, .inl ⟨_, rfl, rfl⟩⟩
  obtain ⟨-, g⟩ := C87_found (k := b!"x") c ⟨⟨b!"41", 0, none, 1⟩, rfl, rfl⟩ fun i o hi _ => (one i o (mem_starts.2 hi)).2
  refine ⟨p, q, f, tr', x, c, h9, hback, by rw [← hf]; rfl, by rw [← hf]; rfl, by rw [← hf]; rfl, fun i o r hr => ⟨g i o r hr ?_, fun h => hio i o (h ▸ hr)⟩⟩
  obtain ⟨t1, t2, e, t3, t4, e', -⟩ := hr
  exact (one i o (mem_starts.2 (by rw [e, e']; simp))).1

/-- Three processes try to add a key; exactly one wins, and the key is there. -/
theorem C87_lock_concrete : ∃ (p q : Bytes → Bytes) (tr' : List (Ev Op)) (x : State Bytes),
    TornUse sites realHashes id [b!"a", b!"b"] [b!"c"] abc p q empties
      (three (fun i => .add { key := b!"y", value := if i = 0 then b!"me" else b!"you" }) ++ tr') x
    ∧ (x.line 9 b!"a").conn.ended = true
    ∧ (Spec.Wired.winners (three (fun i => .add { key := b!"y", value := if i = 0 then b!"me" else b!"you" }) ++ tr')).length = 1
    ∧ ∃ e, (x.world (p b!"y")).find b!"y" = some e := by
  generalize hf : (fun i : Nat => Op.add { key := b!"y", value := if i = 0 then b!"me" else b!"you" }) = f
  have e : ∀ i, f i = Op.add { key := b!"y", value := if i = 0 then b!"me" else b!"you" } := fun i => by rw [← hf]
  obtain ⟨p, q, tr', x, c, hs, hback, hio, h9⟩ := three_replicas empties (empties_healthy _ (by decide)) f fun i => by
    rw [e]
    have h : ∀ v : Bytes, v.length ≤ maxValue → PlainOp (.add { key := b!"y", value := v }) := fun v hv =>
      ⟨⟨⟨(by decide : Key b!"y"), hv, (by decide : InRange 32 0), (by decide : (0 : Nat) < 2 ^ 64)⟩, by simp⟩, rfl⟩
    by_cases h0 : i = 0
    · rw [if_pos h0]; exact h _ (by decide)
    · rw [if_neg h0]; exact h _ (by decide)
  have st := three_starts f hs
  have hops : ∀ i o, (i, o) ∈ Spec.Wired.starts (three f ++ tr') → ∃ it : Item, o = .add it ∧ it.key = b!"y" ∧ it.expiration = 0 := fun i o hi => by
    rw [st] at hi
    rw [(three_of hi).1, e]
    exact ⟨_, rfl, rfl, rfl⟩
  obtain ⟨g1, g2, g3⟩ := C87_lock c hops
  have g4 := g3 rfl (by rw [st]; nofun) hback fun i hi => by
    obtain ⟨l, z, h1, h2, -⟩ := C87_pool c
    obtain ⟨o, ho⟩ := (torn_answered h1).2 i _ (by rw [h2]; exact hi)
    rw [h2] at ho
    exact hio i o ho
  exact ⟨p, q, tr', x, c, h9, g4, g2 fun h => by rw [h] at g4; cases g4⟩

end Wired
end Verif
