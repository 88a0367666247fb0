import Verif.Mc.Session
/-! Operations of one client connection executed one after the other, each waiting for its whole reply. -/

namespace Verif
namespace Spec

/-- What a server, which has sent `resp x` in all once it has got `x` in all, sends because of the further
request `w`. -/
def replyTo (resp : Bytes → Bytes) (sent w : Bytes) : Bytes := (resp (sent ++ w)).drop (resp sent).length

/-- The results of some calls, one after the other, when `sent` has been sent and `unread` is what was
received and not read. -/
def oneByOne (resp : Bytes → Bytes) : Bytes → Bytes → List (Call Out) → List (Res Out)
  | _, _, [] => []
  | sent, unread, c :: cs =>
    match c.wire with
    | .ok w =>
      (c.rd (unread ++ replyTo resp sent w)).1
        :: oneByOne resp (sent ++ w) (c.rd (unread ++ replyTo resp sent w)).2 cs
    | .err e => .err e :: oneByOne resp sent unread cs
    | .panic => .panic :: oneByOne resp sent unread cs

/-- The requests of some calls. -/
def wiresOf : List (Call Out) → Bytes
  | [] => []
  | c :: cs => (match c.wire with | .ok w => w | _ => []) ++ wiresOf cs

/-- A server that answers without looking ahead: more input can only add output. -/
def Online (resp : Bytes → Bytes) : Prop := resp [] = [] ∧ ∀ x y, resp x <+: resp (x ++ y)

/-- A call whose request cannot be composed returns this, without using the connection. -/
def refused (c : Call Out) : Res Out → Prop
  | .err e => c.wire = .err e
  | .panic => c.wire = .panic
  | .ok _ => False

end Spec
end Verif
