import Verif.Lemmas.Ring
import Verif.Pool.Hash
/-! Evaluating a concrete ring in the kernel. -/

namespace Verif
namespace Pool

variable {S : Type}

/-- The search with fuel, so that it computes. -/
def searchF (nodes : List (Node S)) (h : Nat) : Nat → Int → Int → Res Int
  | 0, _, _ => .panic
  | k + 1, lower, upper =>
    if lower ≤ upper then
      if (lower + upper) / 2 < 0 then .panic
      else match nodes[((lower + upper) / 2).toNat]? with
        | none => .panic
        | some n =>
          if n.hash = h then .ok upper
          else if h < n.hash then searchF nodes h k lower ((lower + upper) / 2 - 1)
          else searchF nodes h k ((lower + upper) / 2 + 1) upper
    else .ok upper

theorem searchF_ok (nodes : List (Node S)) (h k : Nat) (lower upper u : Int)
    (he : searchF nodes h k lower upper = .ok u) : search nodes h lower upper = .ok u := by
  induction k generalizing lower upper with
  | zero => simp [searchF] at he
  | succ k ih =>
    rw [search_eq]
    unfold searchF at he
    split
    · rename_i h1
      rw [if_pos h1] at he
      split
      · rename_i h2; rw [if_pos h2] at he; simp at he
      · rename_i h2
        rw [if_neg h2] at he
        cases hg : nodes[((lower + upper) / 2).toNat]? with
        | none => rw [hg] at he; simp at he
        | some n =>
          rw [hg] at he
          dsimp only at he ⊢
          split
          · rename_i h3; rw [if_pos h3] at he; exact he
          · rename_i h3
            rw [if_neg h3] at he
            split
            · rename_i h4; rw [if_pos h4] at he; exact ih _ _ he
            · rename_i h4; rw [if_neg h4] at he; exact ih _ _ he
    · rename_i h1; rw [if_neg h1] at he; exact he

/-- `Pick` on given nodes, with fuel. -/
def pickF (nodes : List (Node S)) (h fuel : Nat) : Res S := do
  let u ← searchF nodes h fuel 0 ((nodes.length : Int) - 1)
  let n ← index nodes (if u < 0 then (0 : Int) else u).toNat
  pure n.server

theorem pickF_ok {H : Hashes} {r : Ring S} {key : Bytes} {s : S} (fuel : Nat)
    (h : pickF r.nodes (H.crc32 key) fuel = .ok s) : r.pick H key = .ok s := by
  unfold pickF at h
  unfold Ring.pick
  cases hs : searchF r.nodes (H.crc32 key) fuel 0 ((r.nodes.length : Int) - 1) with
  | err e => rw [hs] at h; simp at h
  | panic => rw [hs] at h; simp at h
  | ok u =>
    rw [hs] at h
    rw [searchF_ok _ _ _ _ _ _ hs]
    exact h

/-- Insert in front of the first node with a hash at least as large. -/
def insertNode (n : Node S) : List (Node S) → List (Node S)
  | [] => [n]
  | m :: r => if Nat.ble n.hash m.hash then n :: m :: r else m :: insertNode n r

def sortNodes : List (Node S) → List (Node S)
  | [] => []
  | n :: r => insertNode n (sortNodes r)

theorem insertNode_perm (n : Node S) (l : List (Node S)) : (insertNode n l).Perm (n :: l) := by
  induction l with
  | nil => exact List.Perm.refl _
  | cons m r ih =>
    unfold insertNode
    split
    · exact List.Perm.refl _
    · exact (ih.cons m).trans (List.Perm.swap _ _ _)

theorem sortNodes_perm (l : List (Node S)) : (sortNodes l).Perm l := by
  induction l with
  | nil => exact List.Perm.refl _
  | cons m r ih => exact (insertNode_perm _ _).trans (ih.cons m)

theorem insertNode_sorted (n : Node S) (l : List (Node S))
    (h : l.Pairwise (fun a b => a.hash ≤ b.hash)) :
    (insertNode n l).Pairwise (fun a b => a.hash ≤ b.hash) := by
  induction l with
  | nil => exact List.pairwise_singleton _ _
  | cons m r ih =>
    obtain ⟨h1, h2⟩ := List.pairwise_cons.1 h
    unfold insertNode
    split
    · rename_i hle
      have hle := Nat.le_of_ble_eq_true hle
      refine List.pairwise_cons.2 ⟨?_, h⟩
      intro a ha
      rcases List.mem_cons.1 ha with rfl | ha
      · exact hle
      · exact Nat.le_trans hle (h1 a ha)
    · rename_i hle
      have hle : ¬ n.hash ≤ m.hash := fun hh => hle (Nat.ble_eq_true_of_le hh)
      refine List.pairwise_cons.2 ⟨?_, ih h2⟩
      intro a ha
      rcases List.mem_cons.1 ((insertNode_perm n r).mem_iff.1 ha) with rfl | ha
      · omega
      · exact h1 a ha

theorem sortNodes_sorted (l : List (Node S)) :
    (sortNodes l).Pairwise (fun a b => a.hash ≤ b.hash) := by
  induction l with
  | nil => exact List.Pairwise.nil
  | cons m r ih => exact insertNode_sorted _ _ ih

/-- Strictly increasing hashes, checked in one pass. -/
def strictly : List (Node S) → Bool
  | a :: b :: r => Nat.blt a.hash b.hash && strictly (b :: r)
  | _ => true

theorem strictly_pairwise (l : List (Node S)) (h : strictly l = true) :
    l.Pairwise (fun a b => a.hash < b.hash) := by
  induction l with
  | nil => exact List.Pairwise.nil
  | cons a r ih =>
    cases r with
    | nil => exact List.pairwise_singleton _ _
    | cons b r =>
      simp only [strictly, Bool.and_eq_true] at h
      have h1 : a.hash < b.hash := Nat.le_of_ble_eq_true h.1
      have h2 := ih h.2
      refine List.pairwise_cons.2 ⟨?_, h2⟩
      intro c hc
      rcases List.mem_cons.1 hc with rfl | hc
      · exact h1
      · exact Nat.lt_trans h1 ((List.pairwise_cons.1 h2).1 c hc)

/-- When all hashes differ there is only one ring. -/
theorem ring_unique {H : Hashes} {name : S → Bytes} {servers : List S} {r : Ring S}
    (hr : IsRing H name servers r) (hs : strictly (sortNodes (points H name servers)) = true) :
    r.nodes = sortNodes (points H name servers) := by
  have hp : r.nodes.Perm (sortNodes (points H name servers)) :=
    hr.1.1.trans (sortNodes_perm _).symm
  have hst := strictly_pairwise _ hs
  refine List.Perm.eq_of_pairwise (le := fun a b => a.hash ≤ b.hash) ?_ hr.1.2
    (sortNodes_sorted _) hp
  intro a b ha hb h1 h2
  have ha' := hp.mem_iff.1 ha
  obtain ⟨i, hi⟩ := List.mem_iff_getElem?.1 ha'
  obtain ⟨j, hj⟩ := List.mem_iff_getElem?.1 hb
  obtain ⟨hi', rfl⟩ := List.getElem?_eq_some_iff.1 hi
  obtain ⟨hj', rfl⟩ := List.getElem?_eq_some_iff.1 hj
  rcases Nat.lt_trichotomy i j with hlt | rfl | hlt
  · have := List.pairwise_iff_getElem.1 hst i j hi' hj' hlt; omega
  · rfl
  · have := List.pairwise_iff_getElem.1 hst j i hj' hi' hlt; omega

theorem strictly_noClash {l : List (Node S)} (hs : strictly (sortNodes l) = true) :
    Spec.NoClash l := by
  intro a ha b hb he
  have hst := strictly_pairwise _ hs
  obtain ⟨i, hi⟩ := List.mem_iff_getElem?.1 ((sortNodes_perm l).mem_iff.2 ha)
  obtain ⟨j, hj⟩ := List.mem_iff_getElem?.1 ((sortNodes_perm l).mem_iff.2 hb)
  obtain ⟨hi', rfl⟩ := List.getElem?_eq_some_iff.1 hi
  obtain ⟨hj', rfl⟩ := List.getElem?_eq_some_iff.1 hj
  rcases Nat.lt_trichotomy i j with hlt | rfl | hlt
  · have := List.pairwise_iff_getElem.1 hst i j hi' hj' hlt; omega
  · rfl
  · have := List.pairwise_iff_getElem.1 hst j i hj' hi' hlt; omega

end Pool
end Verif
