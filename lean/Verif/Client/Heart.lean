import Verif.Client.Reconn
import Verif.Client.Heartbeat
import Verif.Client.Text
import Verif.Client.Meta
import Verif.Client.Binary
/-!
The options of the constructors (client/server.go:104-117, 134-160, 648-675, 1154-1186), and a client with its
heartbeat goroutine (client/server.go:1835-1854) among the goroutines that use it: `Client/Reconn.lean`, in which
goroutine `none` is the heartbeat and the goroutines `some t` are the program's own.
-/

namespace Verif
namespace Heart
open Spec
open Life (Kind)

/-- `ServerOption`, client/server.go:106-109; the interval in nanoseconds. -/
structure ServerOption where
  interval : Int := 0
  auto : Bool := false
  deriving DecidableEq, Repr

/-- `ServerOpt`, client/server.go:104: any function; a nil one panics when called. -/
abbrev ServerOpt := ServerOption → Res ServerOption

/-- `EnableHeartbeat`, client/server.go:111-113. -/
def enableHeartbeat : ServerOpt := fun o => .ok { o with interval := 1000000000 }

/-- `EnableAutoReconnect`, client/server.go:115-117. -/
def enableAutoReconnect : ServerOpt := fun o => .ok { o with auto := true }

/-- The loop over the options, client/server.go:141-144. -/
def applyOpts : List ServerOpt → ServerOption → Res ServerOption
  | [], o => .ok o
  | f :: fs, o => do
    let o' ← f o
    applyOpts fs o'

/-- What a constructor has done when it returns: the connections it has dialled and not closed, and the heartbeat it
has started (with `reconnect` or not). (client/server.go:134-160.) -/
structure Made where
  open_ : Nat
  heartbeat : Option Bool
  deriving DecidableEq, Repr

/-- `NewServerWithTextProtocol`, client/server.go:134-160; `NewServerWithMetaProtocol`, 648-675, and
`NewServerWithBinaryProtocol`, 1154-1186, are alike.  `dial`: the outcome of `d.DialContext`. -/
def newServer (dial : Res Unit) (opts : List ServerOpt) : Res Unit × Made :=
  match dial with
  | .err e => (.err e, ⟨0, none⟩)
  | .panic => (.panic, ⟨0, none⟩)
  | .ok () =>
    match applyOpts opts {} with
    | .ok o => (.ok (), ⟨1, if 0 < o.interval then some o.auto else none⟩)
    | .err e => (.err e, ⟨1, none⟩)
    | .panic => (.panic, ⟨1, none⟩)

/-- Where the heartbeat goroutine is. (client/server.go:1837-1852.) -/
inductive At where
  /-- In the `select`. -/
  | select
  /-- In `s.Version()`. -/
  | probing
  /-- Before `s.Reconnect()`. -/
  | retry
  /-- In `s.Reconnect()`. -/
  | reconnecting
  /-- Before `s.Close()`. -/
  | giveUp
  /-- In `s.Close()`. -/
  | closing
  | returned
  deriving DecidableEq, Repr

/-- The client with its goroutines and the heartbeat. `probes` and `gaveUp` count and record what happened.
(client/server.go:1835-1854.) -/
structure State (T : Type) where
  base : Reconn.State (Option T)
  hb : At := .select
  timer : Heartbeat.Timer := .armed
  probes : Nat := 0
  gaveUp : Bool := false
  /-- `Version` has panicked in the heartbeat goroutine. -/
  crashed : Bool := false

/-- The client just created with a heartbeat. (client/server.go:155-157, 670-672, 1181-1183.) -/
def init {T : Type} : State T := { base := Reconn.init }

/-- The call `s.Version()` of a client of that kind; a binary one takes any recycled header.
(client/server.go:1842; 603-632, 1105-1130, 1699-1738.) -/
inductive IsVersion : Kind → Call Out → Prop where
  | text : IsVersion .text (Text.version.map fun _ => .done)
  | metap : IsVersion .metap (Meta.version.map fun _ => .done)
  | binary (h : Bin.ReqHdr) : IsVersion .binary ((Bin.version h).map fun _ => .done)

/-- `_, err := s.Version(); if err != nil { if reconnect { ... } else { ... } }`: where the goroutine goes when Version
has returned. (client/server.go:1842-1850.) -/
def after (auto : Bool) : Reconn.Event → At
  | .op _ (.ok _) => .select
  | .op _ .panic => .returned
  | _ => if auto then .retry else .giveUp

/-- Version has panicked. (client/server.go:1842.) -/
def panics : Reconn.Event → Bool
  | .op _ .panic => true
  | _ => false

/-- One step of the program: of the goroutines that use the client, of the network, of the clock, or of the heartbeat.
(client/server.go:1835-1854.) -/
inductive Step {T : Type} [DecidableEq T] (P : Reconn.Params (Option T)) (auto : Bool) : State T → State T → Prop where
  /-- The interval passes. -/
  | fire (s) : s.timer = .armed → Step P auto s { s with timer := .fired }
  /-- A step of another goroutine or of the network. -/
  | world (s b) : Reconn.Step P s.base b → b.pc none = s.base.pc none → Step P auto s { s with base := b }
  /-- `case <-closeCh: return`. -/
  | quit (s) : s.hb = .select → s.base.chanClosed = true → Step P auto s { s with hb := .returned }
  /-- `case <-ticker.C:`, and Version is called. -/
  | tick (s c) : s.hb = .select → s.timer = .fired → IsVersion P.kind c →
      Step P auto s { s with base := s.base.goto none (.user (.called c)), hb := .probing, timer := .drained,
                             probes := s.probes + 1 }
  /-- The heartbeat goroutine gets on with Version, Reconnect or Close. -/
  | inside (s b) : Reconn.Step P s.base b → s.base.pc none ≠ .user .idle → b.pc none ≠ s.base.pc none →
      b.pc none ≠ .user .idle → Step P auto s { s with base := b }
  /-- Version returns. -/
  | probed (s b e) : s.hb = .probing → Reconn.Step P s.base b → s.base.pc none ≠ .user .idle → b.pc none = .user .idle →
      b.log = s.base.log ++ [e] → Step P auto s { s with base := b, hb := after auto e, crashed := s.crashed || panics e }
  /-- Reconnect is called. -/
  | retry (s) : s.hb = .retry → Step P auto s { s with base := s.base.goto none .called, hb := .reconnecting }
  /-- Reconnect returns. -/
  | reconnected (s b ok) : s.hb = .reconnecting → Reconn.Step P s.base b → s.base.pc none ≠ .user .idle →
      b.pc none = .user .idle → b.log = s.base.log ++ [.reconnect ok] →
      Step P auto s { s with base := b, hb := if ok then .select else .returned }
  /-- Close is called. -/
  | giveUp (s) : s.hb = .giveUp → Step P auto s { s with base := s.base.goto none (.user .close), hb := .closing }
  /-- Close returns. -/
  | closed (s b) : s.hb = .closing → Reconn.Step P s.base b → s.base.pc none ≠ .user .idle → b.pc none = .user .idle →
      Step P auto s { s with base := b, hb := .select, gaveUp := true }

/-- Any number of steps from the start. (Not code: executions.) -/
inductive Reach {T : Type} [DecidableEq T] (P : Reconn.Params (Option T)) (auto : Bool) : State T → Prop where
  | init : Reach P auto init
  | step {s s'} : Reach P auto s → Step P auto s s' → Reach P auto s'

/-- Any number of steps from a state. (Not code: executions.) -/
inductive Later {T : Type} [DecidableEq T] (P : Reconn.Params (Option T)) (auto : Bool) (s : State T) : State T → Prop where
  | refl : Later P auto s s
  | step {s' s''} : Later P auto s s' → Step P auto s' s'' → Later P auto s s''

end Heart
end Verif
