import Verif.Spec.Wire
/-!
Meta requests of any client, as text, and what this module's server is to make of them.
Nothing in here refers to the way the server reads or writes.
-/

namespace Verif
namespace Spec
open Srv

/-- `mg <key> <flags>[ <more>]*\r\n` -/
def mgLine (key flags : Bytes) (more : List Bytes) : Bytes :=
  b!"mg " ++ key ++ 32 :: flags ++ more.flatMap (fun w => 32 :: w) ++ crlf

/-- The letter occurs in the word. -/
def Has (w : Bytes) (c : Char) : Prop := UInt8.ofNat c.toNat ∈ w

instance (w : Bytes) (c : Char) : Decidable (Has w c) := by unfold Has; infer_instance

/-- The options a handler is given for the flag word `w` of an `mg`: each letter switches on its
own option and nothing else. -/
structure MgOptions (w : Bytes) (o : GetOpt) : Prop where
  metaCmd : o.metaCmd = true
  word : o.requestFlag = w
  cas : o.cas = true ↔ Has w 'c'
  flag : o.flag = true ↔ Has w 'f'
  hit : o.hit = true ↔ Has w 'h'
  key : o.key = true ↔ Has w 'k'
  lastAccess : o.lastAccess = true ↔ Has w 'l'
  withOpaque : o.withOpaque = true ↔ Has w 'o'
  noReply : o.noReply = true ↔ Has w 'q'
  size : o.size = true ↔ Has w 's'
  ttl : o.ttl = true ↔ Has w 't'
  value : o.value = true ↔ Has w 'v'
  opaq : o.opaq = 0

/-- A token after the size of an `ms`. -/
inductive MsTok where
  | cas (n : Nat)
  | flags (n : Int)
  | invalidate (arg : Bytes)
  | key (arg : Bytes)
  | opaq (n : Int)
  | quiet (arg : Bytes)
  | size (n : Int)
  | ttl (n : Int)
  | other (word : Bytes)

/-- The token as it stands in the request line. -/
def MsTok.text : MsTok → Bytes
  | .cas n => b!"C" ++ natDec n
  | .flags n => b!"F" ++ intDec n
  | .invalidate a => b!"I" ++ a
  | .key a => b!"k" ++ a
  | .opaq n => b!"O" ++ intDec n
  | .quiet a => b!"q" ++ a
  | .size n => b!"S" ++ intDec n
  | .ttl n => b!"T" ++ intDec n
  | .other w => w

/-- The token's number fits the field it is meant for; the words of the others are words, and one
counted as `other` is not empty and begins with none of the eight letters. -/
def MsTok.Fits : MsTok → Prop
  | .cas n => n < 2 ^ 64
  | .flags n => InRange 32 n
  | .invalidate a => Plain a
  | .key a => Plain a
  | .opaq n => InRange 64 n
  | .quiet a => Plain a
  | .size n => InRange 32 n
  | .ttl n => InRange 32 n
  | .other w => Plain w ∧ w ≠ [] ∧ ∀ c ∈ b!"CFIkOqST", w.head? ≠ some c

/-- The last number given by a token of the kind `f` selects, or `d` when there is none. -/
def lastOf {α : Type} (f : MsTok → Option α) (d : α) (l : List MsTok) : α :=
  ((l.filterMap f).getLast?).getD d

/-- The token a token gives. -/
def MsTok.cas? : MsTok → Option Nat | .cas n => some n | _ => none
/-- The flags a token gives. -/
def MsTok.flags? : MsTok → Option Int | .flags n => some n | _ => none
/-- The opaque value a token gives. -/
def MsTok.opaq? : MsTok → Option Int | .opaq n => some n | _ => none
/-- The size a token gives. -/
def MsTok.size? : MsTok → Option Int | .size n => some n | _ => none
/-- The lifetime a token gives. -/
def MsTok.ttl? : MsTok → Option Int | .ttl n => some n | _ => none

/-- The options a handler is given for the tokens of an `ms` with announced size `n`: of several
tokens with the same letter the last one counts, and an `S` token replaces the announced size. -/
structure MsOptions (n : Nat) (toks : List MsTok) (o : SetOpt) : Prop where
  metaCmd : o.metaCmd = true
  cas : o.cas = true ↔ ∃ c, .cas c ∈ toks
  casValue : o.casValue = lastOf MsTok.cas? 0 toks
  flag : o.flag = lastOf MsTok.flags? 0 toks
  invalidate : o.invalidate = true ↔ ∃ a, .invalidate a ∈ toks
  key : o.key = true ↔ ∃ a, .key a ∈ toks
  opaq : o.opaq = lastOf MsTok.opaq? 0 toks
  noReply : o.noReply = true ↔ ∃ a, .quiet a ∈ toks
  size : o.size = lastOf MsTok.size? (n : Int) toks
  expiration : o.expiration = lastOf MsTok.ttl? 0 toks

/-- `ms <key> <size>[ <token>]*\r\n` -/
def msLine (key : Bytes) (n : Nat) (toks : List MsTok) : Bytes :=
  b!"ms " ++ key ++ 32 :: natDec n ++ toks.flatMap (fun t => 32 :: t.text) ++ crlf

/-- What a letter of the flag word adds to the reply line: a space and the field it names. -/
def mgField (key : Bytes) (r : Response) (flags : Nat) (c : UInt8) : Bytes :=
  if [c] = b!"c" then 32 :: intDec r.cas
  else if [c] = b!"f" then 32 :: natDec flags
  else if [c] = b!"k" then 32 :: key
  else if [c] = b!"s" then 32 :: natDec r.value.length
  else if [c] = b!"t" then 32 :: intDec r.ttl
  else []

/-- The line of the reply to an `mg` that finds `r`. -/
def vaLine (key word : Bytes) (r : Response) (flags : Nat) : Bytes :=
  b!"VA " ++ natDec r.value.length ++ 32 :: word ++ word.flatMap (mgField key r flags) ++ crlf

end Spec
end Verif
