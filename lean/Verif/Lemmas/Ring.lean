import Verif.Spec.Ring
/-! Facts about the binary search of the ring. -/

namespace Verif
namespace Pool
open Spec

variable {S : Type}

theorem search_eq (nodes : List (Node S)) (h : Nat) (lower upper : Int) :
    search nodes h lower upper =
      if lower ≤ upper then
        if (lower + upper) / 2 < 0 then .panic
        else match nodes[((lower + upper) / 2).toNat]? with
          | none => .panic
          | some n =>
            if n.hash = h then .ok upper
            else if h < n.hash then search nodes h lower ((lower + upper) / 2 - 1)
            else search nodes h ((lower + upper) / 2 + 1) upper
      else .ok upper := by
  rw [search]; rfl

/-- Nodes before `lower` are below `h`, nodes after `upper` above. -/
def SearchInv (nodes : List (Node S)) (h : Nat) (lower upper : Int) : Prop :=
  0 ≤ lower ∧ upper < nodes.length ∧ lower ≤ upper + 1
    ∧ (∀ (i : Nat) n, nodes[i]? = some n → (i : Int) < lower → n.hash < h)
    ∧ ∀ (i : Nat) n, nodes[i]? = some n → upper < (i : Int) → h < n.hash

theorem sorted_get {nodes : List (Node S)} (hs : nodes.Pairwise (fun a b => a.hash ≤ b.hash))
    {i j : Nat} {a b : Node S} (hi : nodes[i]? = some a) (hj : nodes[j]? = some b) (hij : i ≤ j) :
    a.hash ≤ b.hash := by
  obtain ⟨hi', rfl⟩ := List.getElem?_eq_some_iff.1 hi
  obtain ⟨hj', rfl⟩ := List.getElem?_eq_some_iff.1 hj
  rcases Nat.lt_or_eq_of_le hij with hlt | rfl
  · exact List.pairwise_iff_getElem.1 hs i j hi' hj' hlt
  · exact Nat.le_refl _

/-- What the loop returns: either it found a point of hash `h` in the remaining range and
returns the end of that range, or it narrowed the range down to nothing. -/
theorem search_spec {nodes : List (Node S)} {h : Nat}
    (hs : nodes.Pairwise (fun a b => a.hash ≤ b.hash)) {lower upper : Int}
    (inv : SearchInv nodes h lower upper) :
    ∃ u : Int, search nodes h lower upper = .ok u ∧ -1 ≤ u ∧ u < nodes.length ∧
      ((∃ l : Int, l = u + 1 ∧ SearchInv nodes h l u)
        ∨ ((∃ (i : Nat) (n : Node S), nodes[i]? = some n ∧ n.hash = h ∧ (i : Int) ≤ u)
            ∧ ∀ (i : Nat) n, nodes[i]? = some n → u < (i : Int) → h < n.hash)) := by
  induction hn : (upper - lower + 1).toNat using Nat.strongRecOn generalizing lower upper with
  | ind k ih =>
    rw [search_eq]
    obtain ⟨h0, hu, hlu, hb, ha⟩ := inv
    by_cases hle : lower ≤ upper
    · rw [if_pos hle, if_neg (by omega)]
      have hidx : ((lower + upper) / 2).toNat < nodes.length := by omega
      rw [List.getElem?_eq_getElem hidx]
      dsimp only
      have hget := List.getElem?_eq_getElem hidx
      by_cases he : nodes[((lower + upper) / 2).toNat].hash = h
      · rw [if_pos he]
        exact ⟨upper, rfl, by omega, hu, Or.inr ⟨⟨_, _, hget, he, by omega⟩, ha⟩⟩
      · rw [if_neg he]
        by_cases hlt : h < nodes[((lower + upper) / 2).toNat].hash
        · rw [if_pos hlt]
          refine ih _ ?_ (lower := lower) (upper := (lower + upper) / 2 - 1) ?_ rfl
          · omega
          · refine ⟨h0, by omega, by omega, hb, ?_⟩
            intro i n hi hi'
            have := sorted_get hs hget hi (by omega)
            omega
        · rw [if_neg hlt]
          refine ih _ ?_ (lower := (lower + upper) / 2 + 1) (upper := upper) ?_ rfl
          · omega
          · refine ⟨by omega, hu, by omega, ?_, ha⟩
            intro i n hi hi'
            have := sorted_get hs hi hget (by omega)
            omega
    · rw [if_neg hle]
      refine ⟨upper, rfl, by omega, hu, Or.inl ⟨lower, by omega, h0, hu, hlu, hb, ha⟩⟩

theorem search_init (nodes : List (Node S)) (h : Nat) :
    SearchInv nodes h 0 ((nodes.length : Int) - 1) := by
  refine ⟨Int.le_refl _, by omega, by omega, ?_, ?_⟩
  · intro i n _ h; omega
  · intro i n hi h
    obtain ⟨hi', _⟩ := List.getElem?_eq_some_iff.1 hi
    omega

/-- `Pick` on a non-empty sorted ring: the returned server's point `n` is the last one not
above the hash -- or the first of all. -/
theorem pick_spec {H : Hashes} {r : Ring S} {key : Bytes}
    (hs : r.nodes.Pairwise (fun a b => a.hash ≤ b.hash)) (hne : r.nodes ≠ []) :
    ∃ (u : Nat) (n : Node S), r.nodes[u]? = some n ∧ r.pick H key = .ok n.server ∧
      (((∀ m ∈ r.nodes, m.hash ≠ H.crc32 key) ∧ Owns r.nodes (H.crc32 key) n)
        ∨ ((∃ m ∈ r.nodes, m.hash = H.crc32 key) ∧ H.crc32 key ≤ n.hash
            ∧ ∀ (i : Nat) m, r.nodes[i]? = some m → u < i → H.crc32 key < m.hash)) := by
  obtain ⟨u, hu, h1, h2, h3⟩ := search_spec hs (search_init r.nodes (H.crc32 key))
  have hpos : 0 < r.nodes.length := List.length_pos_iff.2 hne
  have hlt : (if u < 0 then (0 : Int) else u).toNat < r.nodes.length := by split <;> omega
  refine ⟨(if u < 0 then (0 : Int) else u).toNat, r.nodes[(if u < 0 then (0 : Int) else u).toNat],
    List.getElem?_eq_getElem hlt, ?_, ?_⟩
  · simp only [Ring.pick, hu, Res.bind_ok, index, List.getElem?_eq_getElem hlt]
    rfl
  · have hget := List.getElem?_eq_getElem hlt
    rcases h3 with ⟨l, rfl, -, -, -, hb, ha⟩ | ⟨⟨i, n, hi, he, hiu⟩, ha⟩
    · left
      refine ⟨?_, ?_⟩
      · intro m hm
        obtain ⟨j, hj⟩ := List.mem_iff_getElem?.1 hm
        by_cases hju : (j : Int) < u + 1
        · have := hb j m hj hju; omega
        · have := ha j m hj (by omega); omega
      · refine ⟨List.getElem_mem hlt, ?_⟩
        by_cases hneg : u < 0
        · right
          refine ⟨?_, ?_⟩
          · intro m hm
            obtain ⟨j, hj⟩ := List.mem_iff_getElem?.1 hm
            have := ha j m hj (by omega)
            omega
          · intro m hm
            obtain ⟨j, hj⟩ := List.mem_iff_getElem?.1 hm
            refine sorted_get hs hget hj ?_
            simp [hneg]
        · left
          have e : (if u < 0 then (0 : Int) else u).toNat = u.toNat := by rw [if_neg hneg]
          refine ⟨hb _ _ hget (by omega), ?_⟩
          intro m hm hmh
          obtain ⟨j, hj⟩ := List.mem_iff_getElem?.1 hm
          refine sorted_get hs hj hget ?_
          by_cases hju : u < (j : Int)
          · have := ha j m hj hju; omega
          · omega
    · right
      have hneg : ¬ u < 0 := by omega
      refine ⟨⟨n, List.mem_of_getElem? hi, he⟩, ?_, ?_⟩
      · have := sorted_get hs hi hget (by rw [if_neg hneg]; omega)
        omega
      · intro j m hj hju
        exact ha j m hj (by rw [if_neg hneg] at hju; omega)

end Pool
end Verif
