import Verif.Spec.MetaWire
/-!
The requests this module's server understands, as a grammar over bytes: which byte strings are a request,
and which request they are.  Nothing in here refers to the way the server reads.
-/

namespace Verif
namespace Spec
open Srv

/-! ### Numbers -/

/-- Value of a digit. -/
def digitVal (c : UInt8) : Nat := c.toNat - 48

/-- `t` is a non-empty string of decimal digits with value `n`. -/
def Digits (t : Bytes) (n : Nat) : Prop :=
  t ≠ [] ∧ (∀ c ∈ t, 48 ≤ c.toNat ∧ c.toNat ≤ 57) ∧ n = t.foldl (fun a c => 10 * a + digitVal c) 0

/-- `t` is a decimal number with an optional sign and value `i`. -/
inductive Decimal : Bytes → Int → Prop
  | plain {t : Bytes} {n : Nat} : Digits t n → Decimal t n
  | plus {t : Bytes} {n : Nat} : Digits t n → Decimal (43 :: t) n
  | minus {t : Bytes} {n : Nat} : Digits t n → Decimal (45 :: t) (-n)

/-- `t` is a number that fits `bits` bits with sign. -/
def Num (bits : Nat) (t : Bytes) (i : Int) : Prop := Decimal t i ∧ InRange bits i

/-- `t` is an unsigned number (no sign at all) of `bits` bits. -/
def UNum (bits : Nat) (t : Bytes) (n : Nat) : Prop := Digits t n ∧ n < 2 ^ bits

/-! ### Text requests -/

/-- The words a line consists of: separated by single spaces (two spaces in a row have an empty word between them).
A CR LF at the end is not part of the last word; an LF without a CR before it is. -/
def TextLine (line : Bytes) (words : List Bytes) : Prop :=
  words ≠ [] ∧ (∀ w ∈ words, 32 ∉ w)
    ∧ ((10 ∉ joinSp words ∧ line = joinSp words ++ crlf)
      ∨ (∃ p, 10 ∉ p ∧ p.getLast? ≠ some 13 ∧ joinSp words = p ++ [10] ∧ line = joinSp words))

/-- A word read as a token of an `ms`. -/
inductive MsWord : Bytes → MsTok → Prop
  | cas {t : Bytes} {n : Nat} : UNum 64 t n → MsWord (b!"C" ++ t) (.cas n)
  | flags {t : Bytes} {n : Int} : Num 32 t n → MsWord (b!"F" ++ t) (.flags n)
  | invalidate {t : Bytes} : MsWord (b!"I" ++ t) (.invalidate t)
  | key {t : Bytes} : MsWord (b!"k" ++ t) (.key t)
  | opaq {t : Bytes} {n : Int} : Num 64 t n → MsWord (b!"O" ++ t) (.opaq n)
  | quiet {t : Bytes} : MsWord (b!"q" ++ t) (.quiet t)
  | size {t : Bytes} {n : Int} : Num 32 t n → MsWord (b!"S" ++ t) (.size n)
  | ttl {t : Bytes} {n : Int} : Num 32 t n → MsWord (b!"T" ++ t) (.ttl n)
  | other {c : UInt8} {t : Bytes} : c ∉ b!"CFIkOqST" → MsWord (c :: t) (.other (c :: t))

/-- Words read as tokens. -/
inductive MsWords : List Bytes → List MsTok → Prop
  | nil : MsWords [] []
  | cons {w : Bytes} {ws : List Bytes} {t : MsTok} {ts : List MsTok} :
      MsWord w t → MsWords ws ts → MsWords (w :: ws) (t :: ts)

/-- A request line with these words, followed by this data, is this request. -/
inductive TextRequest : List Bytes → Bytes → Request → Prop
  | get {key : Bytes} : TextRequest [b!"get", key] [] { opcode := opGet, key := key }
  | gets {keys : List Bytes} : TextRequest (b!"gets" :: keys) [] { opcode := opGet, keys := some keys }
  | store {cmd key sf se sn value : Bytes} {op a b : UInt8} {f e : Int} :
      (cmd, op) ∈ [(b!"set", opSet), (b!"add", opAdd), (b!"replace", opReplace)] →
      Num 32 sf f → Num 32 se e → Num 32 sn value.length →
      TextRequest [cmd, key, sf, se, sn] (value ++ [a, b])
        { opcode := op, key := key, flags := some (putBE 4 (f % 2 ^ 32).toNat), value := value,
          setOpt := some { expiration := e } }
  | delete {key : Bytes} :
      TextRequest [b!"delete", key] [] { opcode := opDelete, key := key, delOpt := some { metaCmd := false } }
  | md {key : Bytes} :
      TextRequest [b!"md", key] [] { opcode := opDelete, key := key, delOpt := some { metaCmd := true } }
  | arith {cmd key sd : Bytes} {op : UInt8} {d : Int} :
      (cmd, op) ∈ [(b!"incr", opIncrement), (b!"decr", opDecrement), (b!"touch", opTouch)] → Num 32 sd d →
      TextRequest [cmd, key, sd] [] { opcode := op, key := key, delta := d }
  | mg {key word : Bytes} {more : List Bytes} {o : GetOpt} : MgOptions word o →
      TextRequest (b!"mg" :: key :: word :: more) [] { opcode := opGet, key := key, getOpt := some o }
  | ms {key sn value : Bytes} {a b : UInt8} {n : Nat} {ws : List Bytes} {ts : List MsTok} {o : SetOpt} :
      UNum 32 sn n → MsWords ws ts → MsOptions n ts o → o.size = value.length →
      TextRequest (b!"ms" :: key :: sn :: ws) (value ++ [a, b])
        { opcode := opSet, key := key, value := value, setOpt := some o }
  | flush {more : List Bytes} : TextRequest (b!"flush_all" :: more) [] { opcode := opFlush }
  | version {more : List Bytes} : TextRequest (b!"version" :: more) [] { opcode := opVersion }

/-- The bytes are this text request: a line and the data it announces. -/
def IsText (i : Bytes) (req : Request) : Prop :=
  ∃ line words data, i = line ++ data ∧ TextLine line words ∧ TextRequest words data req

/-! ### Binary requests -/

/-- The fields of a request header that the server looks at, and those it does not (`unused`: data type,
virtual bucket; `unused'`: opaque and CAS). -/
def binHeader (op : UInt8) (keyLen : Nat) (extras : UInt8) (unused : Bytes) (body : Nat) (unused' : Bytes) : Bytes :=
  0x80 :: op :: putBE 2 keyLen ++ extras :: unused ++ putBE 4 body ++ unused'

/-- A header with these fields (opcode, key length, length of the extras, total body length) followed by these
bytes is this request. -/
inductive BinRequest : UInt8 → Nat → Nat → Nat → Bytes → Request → Prop
  | get {x b : Nat} {key : Bytes} : BinRequest 0 key.length x b key { opcode := opGet, key := key }
  | getKQ {x b : Nat} {key : Bytes} :
      BinRequest 13 key.length x b key
        { opcode := opGet, key := key, getOpt := some { noReply := true, key := true } }
  | store {op : UInt8} {x b : Nat} {flags more key value : Bytes} {e : Nat} :
      op = 1 ∨ op = 2 ∨ op = 3 → flags.length = 4 → e < 2 ^ 32 → 8 + more.length = x →
      b = x + key.length + value.length →
      BinRequest op key.length x b (flags ++ putBE 4 e ++ more ++ key ++ value)
        { opcode := op, key := key, value := value, flags := some flags, setOpt := some { expiration := e } }
  | delete {x b : Nat} {key : Bytes} : BinRequest 4 key.length x b key { opcode := opDelete, key := key }
  | arith {op : UInt8} {x b : Nat} {initial more key : Bytes} {d : Int} {e : Nat} :
      op = 5 ∨ op = 6 → InRange 64 d → initial.length = 8 → e < 2 ^ 32 → 20 + more.length = x →
      BinRequest op key.length x b (putBE 8 (d % 2 ^ 64).toNat ++ initial ++ putBE 4 e ++ more ++ key)
        { opcode := op, key := key, delta := d, setOpt := some { expiration := e } }
  | touch {x b : Nat} {more key : Bytes} {e : Nat} :
      e < 2 ^ 32 → 4 + more.length = x →
      BinRequest 28 key.length x b (putBE 4 e ++ more ++ key)
        { opcode := opTouch, key := key, setOpt := some { expiration := e } }
  | bare {op : UInt8} {k x b : Nat} : op = 8 ∨ op = 10 ∨ op = 11 → BinRequest op k x b [] { opcode := op }

/-- The bytes are this binary request: a header and what the server reads after it. -/
def IsBinary (i : Bytes) (req : Request) : Prop :=
  ∃ op k x u b u' body, i = binHeader op k x u b u' ++ body ∧ k < 2 ^ 16 ∧ u.length = 3 ∧ b < 2 ^ 32
    ∧ u'.length = 12 ∧ BinRequest op k x.toNat b body req

/-! ### Streams of requests -/

/-- The bytes are this request of this protocol. -/
def IsRequest : Protocol → Bytes → Request → Prop
  | .ascii => IsText
  | .binary => IsBinary

/-- The bytes are these requests, one after the other. -/
inductive Requests (q : Protocol) : Bytes → List Request → Prop
  | nil : Requests q [] []
  | cons {m n : Bytes} {r : Request} {rs : List Request} :
      IsRequest q m r → Requests q n rs → Requests q (m ++ n) (r :: rs)

/-- No request begins the stream: neither the stream nor a beginning of it is one. -/
def NoRequest (q : Protocol) (i : Bytes) : Prop := ∀ m rest req, i = m ++ rest → ¬ IsRequest q m req

/-- The commands the text reader knows. -/
def textCommands : List Bytes :=
  [b!"get", b!"gets", b!"set", b!"add", b!"replace", b!"delete", b!"md", b!"incr", b!"decr", b!"touch", b!"mg", b!"ms",
   b!"flush_all", b!"version"]

/-- The number of words a command may have after it. -/
def Arity (cmd : Bytes) (n : Nat) : Prop :=
  if cmd ∈ [b!"get", b!"delete", b!"md"] then n = 1
  else if cmd ∈ [b!"incr", b!"decr", b!"touch"] then n = 2
  else if cmd ∈ [b!"set", b!"add", b!"replace"] then n = 4
  else if cmd ∈ [b!"mg", b!"ms"] then 2 ≤ n
  else True

/-- The opcodes the binary reader knows. -/
def binaryOpcodes : List UInt8 := [0, 1, 2, 3, 4, 5, 6, 8, 10, 11, 13, 28]

end Spec
end Verif
