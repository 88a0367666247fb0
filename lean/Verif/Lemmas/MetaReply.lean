import Verif.Lemmas.TextReply
import Verif.Client.Meta
/-! Helper lemmas: the meta client reading `VA` lines. -/

namespace Verif
open Spec
namespace Meta

/-- Bytes that neither end a token nor (outside state 2) start one are just collected. -/
theorem hdrScan_run (st : HdrState) (s r : Bytes) (h2 : st.state ≠ 2)
    (hs : ∀ b ∈ s, b ≠ 32 ∧ b ≠ 13) :
    hdrScan st (s ++ r) = hdrScan { st with num := st.num ++ s, tok := st.tok ++ s } r := by
  induction s generalizing st with
  | nil => simp
  | cons b s ih =>
    have hb := hs b (by simp)
    have hstep : hdrStep st b = .ok { st with num := st.num ++ [b], tok := st.tok ++ [b] } := by
      simp [hdrStep, hb.1, hb.2, h2]
    rw [List.cons_append, hdrScan, hstep, Res.bind_ok]
    refine (ih { st with num := st.num ++ [b], tok := st.tok ++ [b] } h2
      (fun x hx => hs x (by simp [hx]))).trans ?_
    simp

/-- The tokens applied one after the other. -/
def foldToks : Item → List (UInt8 × Bytes) → Res Item
  | it, [] => .ok it
  | it, (c, t) :: r => do
    let it' ← readGetFlagToken c t it
    foldToks it' r

def tokBytes (toks : List (UInt8 × Bytes)) : Bytes := toks.flatMap (fun p => 32 :: p.1 :: p.2)

def GoodTok (p : UInt8 × Bytes) : Prop :=
  (p.1 = 102 ∨ p.1 = 99 ∨ p.1 = 116 ∨ p.1 = 107) ∧ ∀ b ∈ p.2, b ≠ 32 ∧ b ≠ 13

theorem letter_ne {c : UInt8} (h : c = 102 ∨ c = 99 ∨ c = 116 ∨ c = 107) : c ≠ 32 ∧ c ≠ 13 := by
  rcases h with rfl | rfl | rfl | rfl <;> decide

/-- From state 2, right behind the space before a token. -/
theorem hdrScan_tok (st : HdrState) (h2 : st.state = 2) (p : UInt8 × Bytes) (hp : GoodTok p) (r : Bytes) :
    ∃ num, hdrScan st (p.1 :: p.2 ++ r)
      = hdrScan { st with state := 3, flagName := p.1, num := num, tok := p.2 } r := by
  obtain ⟨c, t⟩ := p
  obtain ⟨hc, ht⟩ := hp
  have hne := letter_ne hc
  have hstep : hdrStep st c = .ok { st with num := st.num ++ [c], flagName := c, state := 3, tok := [] } := by
    simp only at hc
    simp only [hdrStep, hne.1, hne.2, if_false, hc, if_true, h2]
    rfl
  refine ⟨st.num ++ [c] ++ t, ?_⟩
  simp only [List.cons_append]
  rw [hdrScan, hstep, Res.bind_ok, hdrScan_run _ t r (by simp) ht]
  simp

theorem hdrScan_state3 (toks : List (UInt8 × Bytes)) (ht : ∀ p ∈ toks, GoodTok p) (st : HdrState)
    (h3 : st.state = 3) (it1 it2 : Item)
    (h1 : readGetFlagToken st.flagName st.tok st.item = .ok it1) (hf : foldToks it1 toks = .ok it2) :
    ∃ st', hdrScan st (tokBytes toks ++ [13, 10]) = .ok st' ∧ st'.size = st.size ∧ st'.item = it2 := by
  induction toks generalizing st it1 with
  | nil =>
    simp only [foldToks, Res.ok.injEq] at hf
    subst hf
    have hstep : hdrStep st 13
        = .ok { st with item := it1, num := st.num ++ [13], tok := st.tok ++ [13] } := by
      simp [hdrStep, h3, h1]
    refine ⟨{ st with item := it1, num := st.num ++ [13] ++ [10], tok := st.tok ++ [13] ++ [10] },
      ?_, rfl, rfl⟩
    show (hdrStep st 13 >>= fun st' => hdrScan st' [10]) = _
    rw [hstep, Res.bind_ok]
    rfl
  | cons p ps ih =>
    simp only [foldToks] at hf
    cases hr : readGetFlagToken p.1 p.2 it1 with
    | ok it1' =>
      rw [hr, Res.bind_ok] at hf
      have e : tokBytes (p :: ps) ++ [13, 10] = 32 :: ((p.1 :: p.2) ++ (tokBytes ps ++ [13, 10])) := by
        simp [tokBytes]
      have hstep : hdrStep st 32
          = .ok { st with item := it1, state := 2, num := st.num ++ [32], tok := st.tok ++ [32] } := by
        simp [hdrStep, h3, h1]
      rw [e, hdrScan, hstep, Res.bind_ok]
      obtain ⟨num, hn⟩ := hdrScan_tok
        { st with item := it1, state := 2, num := st.num ++ [32], tok := st.tok ++ [32] } rfl p
        (ht p (by simp)) (tokBytes ps ++ [13, 10])
      rw [hn]
      obtain ⟨st', h1', h2', h3'⟩ := ih (fun q hq => ht q (by simp [hq]))
        { st with item := it1, state := 3, flagName := p.1, num := num, tok := p.2 } rfl it1' hr hf
      exact ⟨st', h1', h2', h3'⟩
    | err e => rw [hr] at hf; simp at hf
    | panic => rw [hr] at hf; simp at hf

/-- A header with size and at least one token. -/
theorem hdrScan_va (size : Nat) (hs : size < 2 ^ 31) (p : UInt8 × Bytes) (ps : List (UInt8 × Bytes))
    (ht : ∀ q ∈ p :: ps, GoodTok q) (it : Item) (hf : foldToks {} (p :: ps) = .ok it) :
    ∃ st, hdrScan {} (natDec size ++ (tokBytes (p :: ps) ++ [13, 10])) = .ok st
      ∧ st.size = size ∧ st.item = it := by
  rw [hdrScan_run {} (natDec size) _ (by decide)
    (fun b hb => ⟨fun h => natDec_no32 size (h ▸ hb), fun h => natDec_no size 13 (by decide) (h ▸ hb)⟩)]
  have e : tokBytes (p :: ps) ++ [13, 10] = 32 :: ((p.1 :: p.2) ++ (tokBytes ps ++ [13, 10])) := by
    simp [tokBytes]
  rw [e, hdrScan]
  have hstep : hdrStep { num := natDec size, tok := natDec size } 32
      = .ok { state := 2, size := (size : Int), num := natDec size ++ [32], tok := natDec size ++ [32] } := by
    simp only [hdrStep, if_true, parseInt_natDec size 32 hs (by omega), numRes]
    rfl
  rw [show ({ ({} : HdrState) with num := ({} : HdrState).num ++ natDec size, tok := ({} : HdrState).tok ++ natDec size } : HdrState) = { num := natDec size, tok := natDec size } from rfl, hstep, Res.bind_ok]
  obtain ⟨num, hn⟩ := hdrScan_tok
    { state := 2, size := (size : Int), num := natDec size ++ [32], tok := natDec size ++ [32] } rfl p
    (ht p (by simp)) (tokBytes ps ++ [13, 10])
  rw [hn]
  simp only [foldToks] at hf
  cases hr : readGetFlagToken p.1 p.2 {} with
  | ok it1 =>
    rw [hr, Res.bind_ok] at hf
    obtain ⟨st', h1', h2', h3'⟩ := hdrScan_state3 ps (fun q hq => ht q (by simp [hq]))
      { state := 3, size := (size : Int), num := num, tok := p.2, flagName := p.1 } rfl it1 it hr hf
    exact ⟨st', h1', h2', h3'⟩
  | err e => rw [hr] at hf; simp at hf
  | panic => rw [hr] at hf; simp at hf

/-- A header with size and the lone letter `v` (what this module's server sends). -/
theorem hdrScan_v (size : Nat) (hs : size < 2 ^ 31) :
    ∃ st, hdrScan {} (natDec size ++ b!" v\r\n") = .ok st ∧ st.size = size ∧ st.item = {} := by
  rw [hdrScan_run {} (natDec size) _ (by decide)
    (fun b hb => ⟨fun h => natDec_no32 size (h ▸ hb), fun h => natDec_no size 13 (by decide) (h ▸ hb)⟩)]
  have hstep : hdrStep { num := natDec size, tok := natDec size } 32
      = .ok { state := 2, size := (size : Int), num := natDec size ++ [32], tok := natDec size ++ [32] } := by
    simp only [hdrStep, if_true, parseInt_natDec size 32 hs (by omega), numRes]
    rfl
  rw [hdrScan, show ({ ({} : HdrState) with num := ({} : HdrState).num ++ natDec size, tok := ({} : HdrState).tok ++ natDec size } : HdrState) = { num := natDec size, tok := natDec size } from rfl, hstep, Res.bind_ok]
  refine ⟨_, rfl, rfl, rfl⟩

/-- Line, then data. -/
theorem parseGetResponse_va (l value rest : Bytes) (it : Item) (hl : (10 : UInt8) ∉ l) (hlen : l.length ≤ 4000)
    (hv : value.length + 2 ≤ maxAlloc)
    (hst : ∃ st, hdrScan {} (l ++ [10]) = .ok st ∧ st.size = value.length ∧ st.item = it) :
    parseGetResponse (b!"VA " ++ l ++ [10] ++ value ++ crlf ++ rest)
      = (.ok { it with value := value }, rest) := by
  obtain ⟨st, h1, h2, h3⟩ := hst
  have hr : readSlice (b!"VA " ++ l ++ [10] ++ value ++ crlf ++ rest)
      = (.ok (b!"VA " ++ l ++ [10]), value ++ crlf ++ rest) := by
    have := readSlice_line (b!"VA " ++ l) (value ++ crlf ++ rest) (by simp [hl]) (by simp; omega)
    simpa using this
  unfold parseGetResponse
  rw [Rd.bind_of_ok hr]
  have n1 : b!"VA " ++ l ++ [10] ≠ msgEnd := by simp [msgEnd]
  have n2 : b!"VA " ++ l ++ [10] ≠ msgNoop := by simp [msgNoop]
  have n3 : hasPrefix (b!"VA " ++ l ++ [10]) b!"VA" = true := by
    rw [hasPrefix_iff]; exact ⟨32 :: l ++ [10], by simp⟩
  rw [if_neg n1, if_neg n2, if_neg (by rw [n3]; simp)]
  have hsf : sliceFrom (b!"VA " ++ l ++ [10]) 3 = .ok (l ++ [10]) := by
    simp [sliceFrom]
  rw [hsf, Rd.bind_of_ok (Rd.lift_apply _ _), h1, Rd.bind_of_ok (Rd.lift_apply _ _), h2,
    Rd.bind_of_ok (readData _ _ hv), sliceTo_append, h3]
  rfl

end Meta
end Verif
