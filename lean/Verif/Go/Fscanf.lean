import Verif.Go.Basic
/-!
`fmt.Fscanf(bytes.NewReader(b), "VALUE %s %d %d[ %d]", &string, &uint32, &int, &uint64)`
as used at client/server.go:229-238, following Go's fmt/scan.go (go 1.20, go.mod):
`doScanf`, `advance`, `SkipSpace`, `scanOne`, `convertString`, `scanInt`, `scanUint`.
`none` is any scan error.
-/

namespace Verif
namespace Scan

/-- Continuation byte 0x80..0xBF within given bounds. (unicode/utf8.) -/
def inB (b : UInt8) (lo hi : Nat) : Bool := lo ≤ b.toNat && b.toNat ≤ hi

/-- `utf8.DecodeRune` (unicode/utf8): the first rune of a non-empty byte string and its
width; an invalid sequence is U+FFFD of width 1. (Library, used by `fmt.Fscanf` at client/server.go:236.) -/
def decodeRune (b0 : UInt8) (r : Bytes) : Nat × Nat :=
  let n0 := b0.toNat
  if n0 < 0x80 then (n0, 1)
  else match r with
    | [] => (0xFFFD, 1)
    | b1 :: r1 =>
      if 0xC2 ≤ n0 ∧ n0 ≤ 0xDF then
        if inB b1 0x80 0xBF then ((n0 - 0xC0) * 64 + (b1.toNat - 0x80), 2) else (0xFFFD, 1)
      else match r1 with
        | [] => (0xFFFD, 1)
        | b2 :: r2 =>
          if 0xE0 ≤ n0 ∧ n0 ≤ 0xEF then
            let lo := if n0 = 0xE0 then 0xA0 else 0x80
            let hi := if n0 = 0xED then 0x9F else 0xBF
            if inB b1 lo hi && inB b2 0x80 0xBF then
              (((n0 - 0xE0) * 64 + (b1.toNat - 0x80)) * 64 + (b2.toNat - 0x80), 3)
            else (0xFFFD, 1)
          else match r2 with
            | [] => (0xFFFD, 1)
            | b3 :: _ =>
              if 0xF0 ≤ n0 ∧ n0 ≤ 0xF4 then
                let lo := if n0 = 0xF0 then 0x90 else 0x80
                let hi := if n0 = 0xF4 then 0x8F else 0xBF
                if inB b1 lo hi && inB b2 0x80 0xBF && inB b3 0x80 0xBF then
                  ((((n0 - 0xF0) * 64 + (b1.toNat - 0x80)) * 64 + (b2.toNat - 0x80)) * 64
                    + (b3.toNat - 0x80), 4)
                else (0xFFFD, 1)
              else (0xFFFD, 1)

/-- All runes of a byte string (what repeated `bytes.Reader.ReadRune` yields). -/
def decodeRunes : Bytes → List Nat
  | [] => []
  | b :: r => (decodeRune b r).1 :: decodeRunes (r.drop ((decodeRune b r).2 - 1))
termination_by b => b.length
decreasing_by simp [List.length_drop]; omega

/-- `utf8.AppendRune` of a valid rune (fmt's `buffer.writeRune`). -/
def encodeRune (n : Nat) : Bytes :=
  if n < 0x80 then [UInt8.ofNat n]
  else if n < 0x800 then [UInt8.ofNat (0xC0 + n / 64), UInt8.ofNat (0x80 + n % 64)]
  else if n < 0x10000 then
    [UInt8.ofNat (0xE0 + n / 4096), UInt8.ofNat (0x80 + n / 64 % 64), UInt8.ofNat (0x80 + n % 64)]
  else [UInt8.ofNat (0xF0 + n / 262144), UInt8.ofNat (0x80 + n / 4096 % 64),
    UInt8.ofNat (0x80 + n / 64 % 64), UInt8.ofNat (0x80 + n % 64)]

/-- `fmt.isSpace` (fmt/scan.go, the table `space`). -/
def isSpace (r : Nat) : Bool :=
  (0x09 ≤ r && r ≤ 0x0d) || r == 0x20 || r == 0x85 || r == 0xa0 || r == 0x1680
    || (0x2000 ≤ r && r ≤ 0x200a) || (0x2028 ≤ r && r ≤ 0x2029) || r == 0x202f || r == 0x205f
    || r == 0x3000

/-- `ss.SkipSpace` with `nlIsSpace = false`: skip spaces, a newline is an error.
(fmt/scan.go, reached from client/server.go:236.) -/
def skipSpace : List Nat → Option (List Nat)
  | [] => some []
  | r :: rs => if r = 10 then none else if isSpace r then skipSpace rs else some (r :: rs)

/-- Drop spaces other than newline. (fmt/scan.go.) -/
def dropSp : List Nat → List Nat
  | [] => []
  | r :: rs => if isSpace r && r != 10 then dropSp rs else r :: rs

/-- A lone space in the format (`ss.advance`): at least one space that is not a newline,
or end of input. (fmt/scan.go, reached from client/server.go:236.) -/
def fmtSpace : List Nat → Option (List Nat)
  | [] => some []
  | r :: rs => if !isSpace r then none else if r = 10 then none else some (dropSp rs)

/-- A literal in the format (`ss.advance`). (fmt/scan.go.) -/
def fmtLit : List Nat → List Nat → Option (List Nat)
  | [], i => some i
  | _ :: _, [] => none
  | c :: cs, r :: rs => if c = r then fmtLit cs rs else none

/-- Longest prefix satisfying a predicate, and the rest. (`ss.accept`/`ss.token` loops of fmt/scan.go.) -/
def takeRun (p : Nat → Bool) : List Nat → List Nat × List Nat
  | [] => ([], [])
  | r :: rs => if p r then let q := takeRun p rs; (r :: q.1, q.2) else ([], r :: rs)

/-- `%s` into a `*string` (`scanOne`, `convertString`): the next word, re-encoded as
UTF-8; end of input is an error. (fmt/scan.go, reached from client/server.go:236.) -/
def scanStr (i : List Nat) : Option (Bytes × List Nat) :=
  match skipSpace i with
  | none => none
  | some [] => none
  | some j =>
    let q := takeRun (fun r => !isSpace r) j
    some (q.1.flatMap encodeRune, q.2)

/-- A decimal digit, as a rune (`digits` of fmt/scan.go). -/
def isDec (r : Nat) : Bool := 48 ≤ r && r ≤ 57

/-- `%d` into a `*uintN` (`scanUint`): decimal digits, no sign.
(fmt/scan.go, reached from client/server.go:236.) -/
def scanUint (bits : Nat) (i : List Nat) : Option (Nat × List Nat) :=
  match skipSpace i with
  | none => none
  | some [] => none
  | some j =>
    let q := takeRun isDec j
    if q.1 = [] then none
    else match parseUint (q.1.map UInt8.ofNat) 64 with
      | none => none
      | some n => if n < 2 ^ bits then some (n, q.2) else none

/-- `%d` into an `*int` (`scanInt`, 64 bits): an optional sign, then decimal digits.
(fmt/scan.go, reached from client/server.go:236.) -/
def scanInt (i : List Nat) : Option (Int × List Nat) :=
  match skipSpace i with
  | none => none
  | some [] => none
  | some (r :: j) =>
    let sgn := if r = 43 ∨ r = 45 then [r] else []
    let k := if r = 43 ∨ r = 45 then j else r :: j
    let q := takeRun isDec k
    if q.1 = [] then none
    else match parseInt ((sgn ++ q.1).map UInt8.ofNat) 64 with
      | none => none
      | some n => some (n, q.2)

/-- The header line of a text `VALUE` block: key, flags, size, and cas when the format
has a fourth verb. (client/server.go:31-32, 229-238.) -/
def scanValue (withCas : Bool) (b : Bytes) : Option (Bytes × Nat × Int × Nat) := do
  let i ← fmtLit [86, 65, 76, 85, 69] (decodeRunes b)
  let i ← fmtSpace i
  let (key, i) ← scanStr i
  let i ← fmtSpace i
  let (flags, i) ← scanUint 32 i
  let i ← fmtSpace i
  let (size, i) ← scanInt i
  if withCas then
    let i ← fmtSpace i
    let (cas, _) ← scanUint 64 i
    return (key, flags, size, cas)
  else
    return (key, flags, size, 0)

end Scan
end Verif
