import Verif.Spec.Router
/-! A handler answering several requests, and calls that end with the connection closed. -/

namespace Verif
namespace Spec

/-- The handler, from state `s` on, answers the requests one after the other with the given
responses (one list each) and is then in state `s'`. -/
inductive Ran {σ : Type} (h : Srv.Handler σ) : σ → List Srv.Request → List (List Srv.Response) → σ → Prop where
  | nil (s : σ) : Ran h s [] [] s
  | cons {s s1 s2 : σ} {req : Srv.Request} {res : List Srv.Response} {reqs : List Srv.Request}
      {rss : List (List Srv.Response)} (hh : h s req = (.ok res, s1)) (hr : Ran h s1 reqs rss s2) :
      Ran h s (req :: reqs) (res :: rss) s2

/-- Call `c` over a connection to a server with handler `h` in state `s`: the server leaves state
`s'` behind and closes the connection, whatever the client sends later, and what it sent before
gives the client the outcome `x`. -/
def CutOff {σ α : Type} (h : Srv.Handler σ) (p : Srv.Protocol) (s : σ) (c : Call α) (x : Res α) (s' : σ) : Prop :=
  ∃ wire sent, c.wire = .ok wire
    ∧ (∀ q rest, q = none ∨ q = some p →
        (Srv.serve h q s (wire ++ rest)).out = sent
        ∧ (Srv.serve h q s (wire ++ rest)).state = s'
        ∧ (Srv.serve h q s (wire ++ rest)).fin = .closed)
    ∧ (c.rd sent).1 = x

/-- The item a binary `GetMulti` makes of a response. -/
def gotItem (r : Srv.Response) : Item := { key := r.key, value := r.value, flags := some r.flags }

end Spec
end Verif
