import Verif.Spec.Grammar
import Verif.Spec.Reply
import Verif.Client.Types
import Verif.Go.Fscanf
/-!
The replies to Get and GetMulti the clients accept, as grammars over bytes (or, for the text Get, over the characters
of the header line as Go's `fmt` sees them).  Nothing in here refers to the way the clients read.
-/

namespace Verif
namespace Spec

/-! ### Text Get -/

/-- White space (Unicode, as Go's `fmt` understands it), no line feed, at least one character. -/
def Blank (s : List Nat) : Prop := s ≠ [] ∧ ∀ r ∈ s, Scan.isSpace r = true ∧ r ≠ 10

/-- At least one character, no white space. -/
def Word (s : List Nat) : Prop := s ≠ [] ∧ ∀ r ∈ s, Scan.isSpace r = false

/-- ASCII bytes as characters. -/
def chars (t : Bytes) : List Nat := t.map UInt8.toNat

/-- What follows a number does not begin with a digit. -/
def NoDigit (s : List Nat) : Prop := ∀ r, s.head? = some r → ¬ (48 ≤ r ∧ r ≤ 57)

/-- The header line of a value as the text Get reads it: `VALUE`, key, flags and size separated by white space, then
anything; unless the line has exactly three spaces, a cas token has to follow the size, then anything.  The flags and
the cas token are unsigned, the size may have a sign. -/
def ValueHead (l key : Bytes) (flags : Nat) (size : Int) (cas : Nat) : Prop :=
  ∃ (t : Bytes) (s1 k s2 : List Nat) (f : Bytes) (s3 : List Nat) (z : Bytes) (rest : List Nat),
    l = b!"VALUE" ++ t ∧ Scan.decodeRunes t = s1 ++ (k ++ (s2 ++ (chars f ++ (s3 ++ (chars z ++ rest)))))
      ∧ Blank s1 ∧ Word k ∧ Blank s2 ∧ UNum 32 f flags ∧ Blank s3 ∧ Num 64 z size
      ∧ key = k.flatMap Scan.encodeRune
      ∧ if l.count 32 = 3 then NoDigit rest ∧ cas = 0
        else ∃ s4 c more, rest = s4 ++ (chars c ++ more) ∧ Blank s4 ∧ UNum 64 c cas ∧ NoDigit more

/-! ### Text GetMulti -/

/-- The header line of a value as the text GetMulti reads it: words separated by single spaces, `VALUE`, key, flags,
size, and anything; if the size is the last word, the line end is two bytes. -/
def MultiHead (l key : Bytes) (flags size : Int) : Prop :=
  ∃ sf ss more, splitSp l = b!"VALUE" :: key :: sf :: ss :: more ∧ Num 64 sf flags
    ∧ if more = [] then ∃ d a b, ss = d ++ [a, b] ∧ Num 64 d size else Num 64 ss size

/-- One value in the reply to a text GetMulti: its header line, the value, two bytes that may be anything; and the
item it stands for. -/
inductive MultiBlock : Bytes → Item → Prop where
  | mk {hdr key value pad : Bytes} {flags : Int} : Line hdr → hdr.length ≤ 4096 → MultiHead hdr key flags value.length →
      value.length + 2 ≤ maxAlloc → pad.length = 2 →
      MultiBlock (hdr ++ value ++ pad) { key := key, value := value, flags := some (putBE 4 (toUnsigned 32 flags)) }

/-- Blocks one after the other. -/
inductive Blocks (B : Bytes → Item → Prop) : Bytes → List Item → Prop where
  | nil : Blocks B [] []
  | cons {b i : Bytes} {item : Item} {items : List Item} : B b item → Blocks B i items → Blocks B (b ++ i) (item :: items)

/-! ### Meta -/

/-- The beginnings of `v` up to each CR in it. -/
def cuts : Bytes → List Bytes
  | [] => []
  | c :: v => (if c = 13 then [[]] else []) ++ (cuts v).map (c :: ·)

/-- The letters that begin a field. -/
def isField (c : UInt8) : Bool := c = 102 ∨ c = 99 ∨ c = 116 ∨ c = 107

/-- The fields a word gives: what stands before its first `f`, `c`, `t` or `k` is ignored, so is a word without them;
every CR inside gives the field as it is up to there, and the end of the word (not of the line) gives it as a whole. -/
def fieldsOf (last : Bool) (w : Bytes) : List (UInt8 × Bytes) :=
  match w.dropWhile (!isField ·) with
  | [] => []
  | c :: v => (cuts v ++ if last then [] else [v]).map fun u => (c, u)

/-- Fields change an item: later ones override earlier ones. -/
inductive Fields : List (UInt8 × Bytes) → Item → Item → Prop where
  | nil (item) : Fields [] item item
  | flags {v : Bytes} {n : Int} {fs} {item item'} : Num 32 v n →
      Fields fs { item with flags := some (putBE 4 (toUnsigned 32 n)) } item' → Fields ((102, v) :: fs) item item'
  | cas {v : Bytes} {n : Int} {fs} {item item'} : Num 64 v n →
      Fields fs { item with cas := toUnsigned 64 n } item' → Fields ((99, v) :: fs) item item'
  | ttl {v : Bytes} {n : Int} {fs} {item item'} : Num 32 v n →
      Fields fs { item with expiration := n } item' → Fields ((116, v) :: fs) item item'
  | key {v : Bytes} {fs} {item item'} :
      Fields fs { item with key := v } item' → Fields ((107, v) :: fs) item item'

/-- The header line of a value as the meta client reads it: `VA`, one byte that may be anything, and either no further
space (then the size is taken to be 0 and no field is read) or the size, a space and words separated by spaces. -/
def MetaHead (l : Bytes) (size : Int) (item : Item) : Prop :=
  ∃ (a : UInt8) (body : Bytes), l = b!"VA" ++ a :: body ∧
    ((32 ∉ body ∧ size = 0 ∧ item = {}) ∨
      ∃ (num : Bytes) (words : List Bytes) (last : Bytes), body = joinSp (num :: words ++ [last]) ∧
        (∀ w ∈ num :: words ++ [last], 32 ∉ w) ∧ Num 32 num size ∧
        Fields (words.flatMap (fieldsOf false) ++ fieldsOf true last) {} item)

/-- One value in a meta reply. -/
inductive MetaBlock : Bytes → Item → Prop where
  | mk {hdr value pad : Bytes} {item : Item} : Line hdr → hdr.length ≤ 4096 → MetaHead hdr value.length item →
      pad.length = 2 → MetaBlock (hdr ++ value ++ pad) { item with value := value }

/-! ### Binary -/

/-- Where the value begins in the body: a 16-bit sum. -/
def valueFrom (h : Bytes) : Nat := (extraLenOf h + keyLenOf h) % 2 ^ 16

/-- One value in the reply to a binary GetMulti. -/
inductive BinMultiBlock : Bytes → Item → Prop where
  | mk {h body : Bytes} : BinHead h → opcodeOf h ≠ 10 → statusOf h = 0 → body.length = bodyLenOf h →
      extraLenOf h ≤ valueFrom h → valueFrom h ≤ body.length →
      BinMultiBlock (h ++ body) { key := (body.take (valueFrom h)).drop (extraLenOf h), value := body.drop (valueFrom h),
                                  flags := some (body.take (extraLenOf h)) }

end Spec
end Verif
