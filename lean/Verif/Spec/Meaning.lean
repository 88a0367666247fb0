import Verif.Spec.Converse
import Verif.Spec.Reply
import Verif.Spec.Grammar
/-!
C82: what each reply means to each operation, the text of every error included.
-/

namespace Verif
namespace Spec

/-- The operations of text and meta clients whose reply is one of a few words: what the line `l` means. -/
def wordMeans : Proto → Op → Bytes → Option (Res Out)
  | .text _, .set _, l => some
    (if l = b!"STORED\r\n" then .ok .done else if l = b!"EXISTS\r\n" then .err .itemExists
     else .err (.msg (b!"memcached: failed set: " ++ l)))
  | .text _, .delete _, l | .text _, .touch _ _, l => some (if l = b!"NOT_FOUND\r\n" then .err .itemNotFound else .ok .done)
  | .text _, .add _, l | .metap, .add _, l => some (if l = b!"STORED\r\n" then .ok .done else .err .itemExists)
  | .text _, .replace _, l | .metap, .replace _, l => some (if l = b!"STORED\r\n" then .ok .done else .err .itemNotFound)
  | .metap, .set _, l => some
    (if b!"HD" <+: l then .ok .done else if b!"NS" <+: l then .err (.msg b!"memcached: not stored")
     else if b!"EX" <+: l then .err .itemExists else if b!"NF" <+: l then .err .itemNotFound
     else .err (.msg b!"memcached: failed set"))
  | .metap, .delete _, l => some
    (if b!"HD" <+: l ∨ b!"NF" <+: l then .ok .done else if b!"EX" <+: l then .err .itemNotFound
     else .err (.msg b!"memcached: failed delete"))
  | .metap, .touch _ _, l => some (if b!"HD" <+: l then .ok .done else .err (.msg b!"memcached: failed touch"))
  | _, _, _ => none

/-- `Increment` and `Decrement` of text and meta clients: a number and any two bytes. -/
inductive NumberMeans : Bytes → Res Out → Prop where
  | missing : NumberMeans b!"NOT_FOUND\r\n" (.err .itemNotFound)
  | number {d : Bytes} {a b : UInt8} {n : Int} : Num 64 d n → NumberMeans (d ++ [a, b]) (.ok (.num n))
  | other {d : Bytes} {a b : UInt8} : d ++ [a, b] ≠ b!"NOT_FOUND\r\n" → (∀ n, ¬ Num 64 d n) → NumberMeans (d ++ [a, b]) (.err .num)
  | short {a : UInt8} : NumberMeans [a] .panic

/-- `Flush` of text and meta clients: `OK`, or anything and two bytes. -/
inductive FlushMeans : Bytes → Res Out → Prop where
  | ok : FlushMeans b!"OK\r\n" (.ok .done)
  | other {d : Bytes} {a b : UInt8} : d ++ [a, b] ≠ b!"OK\r\n" → FlushMeans (d ++ [a, b]) (.err (.msg (b!"memcached: " ++ d)))
  | short {a : UInt8} : FlushMeans [a] .panic

/-- `Version` of text and meta clients: the line without `VERSION ` in front, if it is there, and without the end of
line, if it is CR LF. -/
def VersionMeans (l v : Bytes) : Prop :=
  ∃ u, (l = b!"VERSION " ++ u ∨ u = l ∧ ¬ b!"VERSION " <+: l) ∧ (u = v ++ crlf ∨ v = u ∧ ¬ crlf <:+ u)

/-- The names of the binary statuses. -/
def statusName : Nat → Option Bytes
  | 1 => some b!"key not found"
  | 2 => some b!"key exists"
  | 3 => some b!"value too large"
  | 4 => some b!"invalid arguments"
  | 6 => some b!"non-numeric value"
  | 129 => some b!"unknown command"
  | 130 => some b!"out of memory"
  | _ => none

/-- The error for a binary status. -/
def statusText (status : Nat) : Err :=
  match statusName status with
  | some n => .msg (b!"memcached: error " ++ n)
  | none => .msg (b!"memcached: unknown error " ++ natDec status)

/-- The error of `Increment` and `Decrement`, with the body of the reply. -/
def statusTextBody (status : Nat) (body : Bytes) : Err :=
  match statusName status with
  | some n => if body = [] then .msg (b!"memcached: error " ++ n) else .msg (b!"memcached: error " ++ n ++ b!" (" ++ body ++ b!")")
  | none => .msg (b!"memcached: unknown error " ++ natDec status ++ b!" (" ++ body ++ b!")")

/-- Not the reply that was expected. -/
def invalid : Err := .msg b!"memcached: invalid response"

/-- The binary operations that read no more than the header: what the header with this opcode and this status means. -/
def headMeans : Op → UInt8 → Nat → Option (Res Out)
  | .set _, op, st => some (if op ≠ 1 then .err invalid else if st = 0 then .ok .done else if st = 2 then .err .itemExists else .err (statusText st))
  | .add _, op, st => some (if op ≠ 2 then .err invalid else if st = 0 then .ok .done else if st = 2 then .err .itemExists else .err (statusText st))
  | .touch _ _, _, st => some (if st = 0 then .ok .done else .err (statusText st))
  | .flush, op, _ => some (if op ≠ 8 then .err invalid else .ok .done)
  | _, _, _ => none

/-- The binary operations that also read the body: the opcode they look for, if they do. -/
def ownOpcode : Op → Option UInt8
  | .replace _ => some 3
  | .delete _ => some 4
  | .increment _ _ _ => some 5
  | .decrement _ _ _ => some 6
  | _ => none

/-- What a reply with status `st ≠ 0` means to them. -/
def failMeans : Op → Nat → Bytes → Option Err
  | .get _, st, _ | .replace _, st, _ | .delete _, st, _ => some (if st = 1 then .itemNotFound else statusText st)
  | .increment _ _ _, st, body | .decrement _ _ _, st, body => some (statusTextBody st body)
  | _, _, _ => none

end Spec
end Verif
