import Verif.Client.MemSession
/-!
What it means that the results of an operation belong to the caller (C74).
-/

namespace Verif
namespace Spec
open Mem

/-- The arrays an item refers to. -/
def arrays (it : MItem) : List Nat := it.value.arr :: (it.flags.toList.map (·.arr))

/-- The items in a result. -/
def itemsOf : MOut → List MItem
  | .item i => [i]
  | .items l => l
  | _ => []

/-- A result as somebody sees it who looks at memory `m`. -/
def seen (m : Memory) : MOut → Out
  | .item i => .item (i.flat m)
  | .items l => .items (l.map (MItem.flat m))
  | .num n => .num n
  | .done => .done

/-- An outcome as seen in memory `m`. -/
def seenRes (m : Memory) (r : Res MOut) : Res Out := r.map (seen m)

/-- No two items share an array. -/
def Distinct (l : List MItem) : Prop := l.Pairwise fun a b => ∀ x ∈ arrays a, x ∉ arrays b

/-- All slices of the items lie within arrays made since there were `n` arrays. -/
def Fresh (n : Nat) (m : Memory) (l : List MItem) : Prop :=
  ∀ it ∈ l, it.Valid m ∧ ∀ x ∈ arrays it, n ≤ x ∧ x < m.length

/-- The value has an array to itself, whose last two bytes are behind it, and so have the flags (four bytes). -/
structure OwnArrays (m : Memory) (it : MItem) : Prop where
  value : it.value.off = 0 ∧ it.value.cap = it.value.len + 2 ∧ (array m it.value.arr).length = it.value.len + 2
  flags : ∀ f, it.flags = some f → f.arr ≠ it.value.arr ∧ f.off = 0 ∧ f.len = 4 ∧ f.cap = 4 ∧ (array m f.arr).length = 4

/-- Flags and value are parts of one array: the flags its beginning, with the whole array as capacity, the value its end. -/
structure OneArray (m : Memory) (it : MItem) : Prop where
  flags : ∃ f, it.flags = some f ∧ f.arr = it.value.arr ∧ f.off = 0 ∧ f.cap = (array m it.value.arr).length
  value : it.value.off + it.value.len = (array m it.value.arr).length ∧ it.value.cap = it.value.len

/-- The arrays that were there before are as before, but for the two the connection uses itself: the buffer of its
`bufio.Reader` and the header of a binary response. -/
def OnlyItsOwn (c : MSock) (m' : Memory) : Prop :=
  c.mem.length ≤ m'.length ∧ ∀ a, a < c.mem.length → a ≠ c.arr → a ≠ c.hdr → array m' a = array c.mem a

/-- The memory of a connection in order: the buffer has its size, the header 24 bytes, they are different arrays. -/
structure Sound (c : MSock) : Prop where
  ne : c.arr ≠ c.hdr
  arr : c.arr < c.mem.length
  hdr : c.hdr < c.mem.length
  buf : (array c.mem c.arr).length = bufSize
  hbuf : (array c.mem c.hdr).length = 24
  rw : c.r ≤ c.w
  w : c.w ≤ bufSize

/-- How the items of a result lie in memory: text and meta give every slice an array of its own, binary gives each item
one array for both. -/
def Shape : Wire → Memory → MItem → Prop
  | .text _ => OwnArrays
  | .metap => OwnArrays
  | .binary _ _ => OneArray

/-- The slices of an item given to the connection are the caller's: they exist and are not the connection's own arrays. -/
def Given (c : MSock) (o : MOp) : Prop :=
  ∀ it, o.item = some it → it.Valid c.mem ∧ ∀ x ∈ arrays it, x ≠ c.arr ∧ x ≠ c.hdr

/-- The two bytes behind the value, which text and meta Set may overwrite (C29). -/
def Spare (w : Wire) (o : MOp) (a i : Nat) : Prop :=
  ∃ it, o = .set it ∧ (∀ h h', w ≠ .binary h h') ∧ a = it.value.arr ∧ it.value.len + 2 ≤ it.value.cap
    ∧ (i = it.value.off + it.value.len ∨ i = it.value.off + it.value.len + 1)

/-- A caller at work on one connection, and the items it got so far, each with what was in it when it came.  In between
it may make new arrays, write into arrays that hold none of these items, and give these items, in the same or other
shape, or items of its own back to the connection. -/
inductive Using (w : Wire) (c0 : MSock) : MSock → List (MItem × Item) → Prop
  | start : Sound c0 → Using w c0 c0 []
  | make {c rs} (bs : Bytes) : Using w c0 c rs → Using w c0 { c with mem := c.mem ++ [bs] } rs
  | write {c rs} (a pos : Nat) (bs : Bytes) : Using w c0 c rs → a < c.mem.length → pos + bs.length ≤ (array c.mem a).length →
      a ≠ c.arr → a ≠ c.hdr → (∀ p ∈ rs, a ∉ arrays p.1) → Using w c0 { c with mem := Mem.write c.mem a pos bs } rs
  | got {c rs} (grow : Nat) (o : MOp) (out : MOut) (c' : MSock) : Using w c0 c rs → Given c o →
      (∀ it, o.item = some it → (∃ p ∈ rs, it.value = p.1.value) ∨ ∀ p ∈ rs, it.value.arr ∉ arrays p.1) →
      mcall w grow o c = (.ok out, c') → Using w c0 c' (rs ++ (itemsOf out).map fun it => (it, it.flat c'.mem))
  | failed {c rs} (grow : Nat) (o : MOp) (r : Res MOut) (c' : MSock) : Using w c0 c rs → Given c o →
      (∀ it, o.item = some it → (∃ p ∈ rs, it.value = p.1.value) ∨ ∀ p ∈ rs, it.value.arr ∉ arrays p.1) →
      (∀ out, r ≠ .ok out) → mcall w grow o c = (r, c') → Using w c0 c' rs

end Spec
end Verif
