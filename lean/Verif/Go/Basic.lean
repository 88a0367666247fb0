/-
Bytes, errors, outcomes and stream readers: the vocabulary in which the Go code
of /repo is modelled.  Nothing here is specific to memcached.
-/

namespace Verif

/-- A Go `string` or `[]byte` seen as a value. (E.g. client/client.go:7-15.) -/
abbrev Bytes := List UInt8

open Lean in
/-- `b!"text"` is the list of the bytes of a literal (Go string literal). -/
macro:max "b!" s:str : term => do
  let elems := s.getString.toUTF8.toList.map (fun b => Syntax.mkNumLit (toString b.toNat))
  let arr : Array (TSyntax `term) := (elems.map (fun e => (⟨e.raw⟩ : TSyntax `term))).toArray
  `(([$arr,*] : List UInt8))

/-- Error values a call can return.  `itemNotFound`/`itemExists` are the two
sentinels of errors/errors.go:8-11 (compared by identity in the code); `io` is any
error of the connection (EOF, unexpected EOF, reset, closed, deadline);
`bufferFull` is `bufio.ErrBufferFull`; `num` a `*strconv.NumError`; `scan` any error of
`fmt.Fscanf`; `msg` an error made by `errors.New`/`fmt.Errorf` with that text. -/
inductive Err where
  | io
  | bufferFull
  | num
  | scan
  | itemNotFound
  | itemExists
  | msg (text : Bytes)
  deriving DecidableEq, Repr

/-- Outcome of a Go call: a value, an error, or a run-time panic.
(No counterpart in /repo: Go signatures `(T, error)` as in client/server.go:87-102.) -/
inductive Res (α : Type) where
  | ok (a : α)
  | err (e : Err)
  | panic
  deriving DecidableEq, Repr

namespace Res
variable {α β : Type}

/-- `a, err := m; if err != nil { return err }; f(a)`. -/
@[simp] def bind : Res α → (α → Res β) → Res β
  | .ok a, f => f a
  | .err e, _ => .err e
  | .panic, _ => .panic

instance : Monad Res where
  pure := .ok
  bind := Res.bind

@[simp] theorem pure_eq (a : α) : (pure a : Res α) = .ok a := rfl
@[simp] theorem bind_ok (a : α) (f : α → Res β) : (Res.ok a >>= f) = f a := rfl
@[simp] theorem bind_err (e : Err) (f : α → Res β) : (Res.err e >>= f) = .err e := rfl
@[simp] theorem bind_panic (f : α → Res β) : ((Res.panic : Res α) >>= f) = .panic := rfl

/-- The call returned without error and without panic. (Auxiliary.) -/
def isOk : Res α → Bool
  | .ok _ => true
  | _ => false

@[simp] theorem isOk_ok (a : α) : (Res.ok a).isOk = true := rfl
@[simp] theorem isOk_err (e : Err) : (Res.err e : Res α).isOk = false := rfl
@[simp] theorem isOk_panic : (Res.panic : Res α).isOk = false := rfl

end Res

/-- A computation that reads from a connection.  The argument is the complete
sequence of bytes the peer sends (from the current read position on) before the
connection ends; the result is the outcome and the bytes left unread. -/
def Rd (α : Type) := Bytes → Res α × Bytes

namespace Rd
variable {α β : Type}

/-- `return a, nil`. -/
def pure (a : α) : Rd α := fun i => (.ok a, i)

/-- `a, err := m; if err != nil { return err }; f(a)`. -/
def bind (m : Rd α) (f : α → Rd β) : Rd β := fun i =>
  match m i with
  | (.ok a, r) => f a r
  | (.err e, r) => (.err e, r)
  | (.panic, r) => (.panic, r)

instance : Monad Rd where
  pure := Rd.pure
  bind := Rd.bind

/-- Return an error. (`return nil, err`.) -/
def fail (e : Err) : Rd α := fun i => (.err e, i)

/-- A pure step that may fail or panic.
(E.g. `strconv` and slice expressions between reads, client/server.go:302-333.) -/
def lift (r : Res α) : Rd α := fun i => (r, i)

@[simp] theorem pure_apply (a : α) (i : Bytes) : (Pure.pure a : Rd α) i = (.ok a, i) := rfl

theorem bind_apply (m : Rd α) (f : α → Rd β) (i : Bytes) :
    (m >>= f) i = match m i with
      | (.ok a, r) => f a r
      | (.err e, r) => (.err e, r)
      | (.panic, r) => (.panic, r) := rfl

@[simp] theorem fail_apply (e : Err) (i : Bytes) : (Rd.fail e : Rd α) i = (.err e, i) := rfl
@[simp] theorem lift_apply (r : Res α) (i : Bytes) : Rd.lift r i = (r, i) := rfl

theorem bind_of_ok {m : Rd α} {f : α → Rd β} {i r : Bytes} {a : α} (h : m i = (.ok a, r)) :
    (m >>= f) i = f a r := by rw [bind_apply, h]
theorem bind_of_err {m : Rd α} {f : α → Rd β} {i r : Bytes} {e : Err} (h : m i = (.err e, r)) :
    (m >>= f) i = (.err e, r) := by rw [bind_apply, h]
theorem bind_of_panic {m : Rd α} {f : α → Rd β} {i r : Bytes} (h : m i = (.panic, r)) :
    (m >>= f) i = (.panic, r) := by rw [bind_apply, h]

@[simp] theorem ite_apply' (c : Prop) [Decidable c] (a b : Rd α) (i : Bytes) :
    (if c then a else b) i = if c then a i else b i := by split <;> rfl

end Rd

/-! ### Go byte-string functions -/

/-- Carriage return, `'\r'` in client/server.go:803. -/
def CR : UInt8 := 13
/-- Line feed, the delimiter given to `ReadSlice`/`ReadBytes` (client/server.go:217 and alike, server/server.go:117). -/
def LF : UInt8 := 10
/-- Space, the separator of fields (client/server.go:302, server/server.go:121). -/
def SP : UInt8 := 32

/-- `[]byte("\r\n")`: client/server.go:22, server/server.go:59. -/
def crlf : Bytes := [13, 10]

/-- `bytes.HasPrefix`. -/
def hasPrefix (s p : Bytes) : Bool := p.isPrefixOf s

/-- `strings.TrimPrefix`. -/
def trimPrefix (s p : Bytes) : Bytes := if hasPrefix s p then s.drop p.length else s

/-- `strings.TrimSuffix`. -/
def trimSuffix (s q : Bytes) : Bytes := if q.isSuffixOf s then s.take (s.length - q.length) else s

/-- `strings.Split(s, " ")` / `bytes.Split(s, []byte(" "))`: never empty. -/
def splitSp : Bytes → List Bytes
  | [] => [[]]
  | b :: r =>
    if b = 32 then [] :: splitSp r
    else match splitSp r with
      | [] => [[b]]
      | h :: t => (b :: h) :: t

/-- `strings.Join(keys, " ")`. -/
def joinSp : List Bytes → Bytes
  | [] => []
  | [k] => k
  | k :: ks => k ++ 32 :: joinSp ks

/-! ### Reading from a buffered connection -/

/-- Split a stream after its first LF.
(The delimiter search of `bufio.Reader.ReadSlice`/`ReadBytes`, client/server.go:217 and alike, server/server.go:117.) -/
def splitLine : Bytes → Option (Bytes × Bytes)
  | [] => none
  | b :: r =>
    if b = 10 then some ([10], r)
    else match splitLine r with
      | none => none
      | some (l, r') => some (b :: l, r')

/-- `bufio.Reader.ReadBytes('\n')` (bufio/bufio.go): the line including its LF, of any
length; the error of the connection if it ends first. -/
def readBytes : Rd Bytes := fun i =>
  match splitLine i with
  | some (l, r) => (.ok l, r)
  | none => (.err .io, [])

/-- Size of the buffer of `bufio.NewReader` (bufio.defaultBufSize). -/
def bufSize : Nat := 4096

/-- `bufio.Reader.ReadSlice('\n')`: as `ReadBytes`, but a line (with its LF) that does
not fit into the 4096-byte buffer is the error ErrBufferFull, with the full buffer
consumed.  The returned slice aliases the buffer; no caller in /repo reads from the
connection before it is done with the slice, so it is modelled as a value. -/
def readSlice : Rd Bytes := fun i =>
  match splitLine i with
  | some (l, r) => if l.length ≤ bufSize then (.ok l, r) else (.err .bufferFull, i.drop bufSize)
  | none => if bufSize ≤ i.length then (.err .bufferFull, i.drop bufSize) else (.err .io, [])

/-- `io.ReadFull(conn, make([]byte, n))` for a length that is already known to be legal. -/
def readFull (n : Nat) : Rd Bytes := fun i =>
  if n ≤ i.length then (.ok (i.take n), i.drop n) else (.err .io, [])

/-- Largest allocation the run time accepts (runtime.maxAlloc, 2^48 on linux/amd64);
`make` panics beyond.  Running out of memory below that is not modelled.
(Library; matters for client/server.go:243, 324, 819 and server/server.go:153, 279, 335.) -/
def maxAlloc : Nat := 2 ^ 48

/-- `make([]byte, n)`: panics on a negative or impossible length.
(client/server.go:243, 324, 819; server/server.go:153, 279, 335.) -/
def makeLen (n : Int) : Res Nat :=
  if 0 ≤ n ∧ n ≤ maxAlloc then .ok n.toNat else .panic

/-- `buf := make([]byte, n)` followed by `io.ReadFull(conn, buf)`. -/
def readN (n : Int) : Rd Bytes := do
  let k ← Rd.lift (makeLen n)
  readFull k

/-- `b[:n]` where `b` has no capacity beyond what the model shows.
(client/server.go:247, 316, 408, 599, 823; server/server.go:157, 283.) -/
def sliceTo (b : Bytes) (n : Int) : Res Bytes :=
  if 0 ≤ n ∧ n ≤ b.length then .ok (b.take n.toNat) else .panic

/-- `b[n:]`. (client/server.go:786, 1262.) -/
def sliceFrom (b : Bytes) (n : Nat) : Res Bytes :=
  if n ≤ b.length then .ok (b.drop n) else .panic

/-- `b[m:n]`. (client/server.go:1323; server/server.go:326, 361.) -/
def slice (b : Bytes) (m n : Nat) : Res Bytes :=
  if m ≤ n ∧ n ≤ b.length then .ok ((b.take n).drop m) else .panic

/-- `l[i]` on a slice: panics when out of range. (client/server.go:307, 316, 318; client/ring.go:75.) -/
def index {α : Type} (l : List α) (i : Nat) : Res α :=
  match l[i]? with
  | some a => .ok a
  | none => .panic

/-! ### strconv -/

/-- Is `b` an ASCII decimal digit. (Part of strconv.) -/
def isDigit (b : UInt8) : Bool := 48 ≤ b && b ≤ 57

/-- Value of a string of decimal digits, most significant first. (The digit loop of `strconv.ParseUint`.) -/
def decVal : Bytes → Nat → Option Nat
  | [], acc => some acc
  | b :: r, acc => if isDigit b then decVal r (acc * 10 + (b.toNat - 48)) else none

/-- `strconv.ParseUint(s, 10, bits)`; `none` is any `*NumError` (syntax or range). -/
def parseUint (s : Bytes) (bits : Nat) : Option Nat :=
  match s with
  | [] => none
  | _ :: _ =>
    match decVal s 0 with
    | some n => if n < 2 ^ bits then some n else none
    | none => none

/-- `strconv.ParseInt(s, 10, bits)` (an optional sign, then digits, range-checked).
`strconv.Atoi` is the case `bits = 64`. -/
def parseInt (s : Bytes) (bits : Nat) : Option Int :=
  match s with
  | [] => none
  | b :: r =>
    if b = 45 then
      match parseUint r bits with
      | some n => if n ≤ 2 ^ (bits - 1) then some (-(n : Int)) else none
      | none => none
    else if b = 43 then
      match parseUint r bits with
      | some n => if n < 2 ^ (bits - 1) then some (n : Int) else none
      | none => none
    else
      match parseUint s bits with
      | some n => if n < 2 ^ (bits - 1) then some (n : Int) else none
      | none => none

/-- Decimal digits of a natural number (`%d`, `strconv.FormatInt`). -/
def natDec (n : Nat) : Bytes :=
  if n < 10 then [UInt8.ofNat (48 + n)]
  else natDec (n / 10) ++ [UInt8.ofNat (48 + n % 10)]
termination_by n

/-- `%d` of a signed integer. (`fmt.Fprintf` in client/server.go:393, 429, 468, 472, 876.) -/
def intDec (i : Int) : Bytes :=
  if i < 0 then 45 :: natDec i.natAbs else natDec i.toNat

/-- Turn an optional strconv result into an outcome. -/
def numRes {α : Type} : Option α → Res α
  | some a => .ok a
  | none => .err .num

/-! ### encoding/binary, big endian -/

/-- `binary.BigEndian.PutUintN`: the low `k` bytes of `n`, most significant first. -/
def putBE : Nat → Nat → Bytes
  | 0, _ => []
  | k + 1, n => UInt8.ofNat (n / 256 ^ k) :: putBE k n

/-- `binary.BigEndian.UintN` of exactly the given bytes. -/
def getBE (b : Bytes) : Nat := b.foldl (fun a x => a * 256 + x.toNat) 0

/-- `binary.BigEndian.Uint32(b)`/`Uint64(b)`: uses the first `k` bytes, panics when
there are fewer. -/
def beUint (k : Nat) (b : Bytes) : Res Nat :=
  if k ≤ b.length then .ok (getBE (b.take k)) else .panic

/-! ### integer conversions -/

/-- `uintN(i)` of a Go integer: two's complement truncation.
(client/server.go:312, 836, 843; client/client.go:19.) -/
def toUnsigned (bits : Nat) (i : Int) : Nat := (i % (2 ^ bits : Nat)).toNat

/-- `intN(u)` of an unsigned number below `2^N`. (client/server.go:1617; server/server.go:372.) -/
def toSigned (bits : Nat) (n : Nat) : Int :=
  if n % 2 ^ bits < 2 ^ (bits - 1) then (n % 2 ^ bits : Nat) else (n % 2 ^ bits : Nat) - (2 ^ bits : Nat)

end Verif
