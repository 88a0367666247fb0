import Verif.Spec.Served
import Verif.Props.FlowServer
import Verif.Props.NarrowUse
/-!
C80: goroutines sharing a client of this module whose other side is a server of this module.
-/

namespace Verif
namespace Served
open Srv Spec Props
open Narrow (Says AtRest)

variable {T : Type} [DecidableEq T] {σ : Type}

/-! ### The server as what it says to an input -/

theorem says_server (h : Handler σ) (q : Option Protocol) (s : σ) :
    Says (Flow.server h) (q, s) (fun i => (serve h q s i).out) := by
  intro i
  generalize hn : i.length = n
  induction n using Nat.strongRecOn generalizing q s i with
  | _ n ih =>
    show ∃ s' rest, Flow.Replies (Flow.server h) (q, s) i (serve h q s i).out s' rest ∧ (Flow.server h).next s' rest = none
    cases hx : (Flow.server h).next (q, s) i with
    | none =>
      refine ⟨(q, s), i, ?_, hx⟩
      have : (serve h q s i).out = [] := by
        rw [serve_eq]
        cases hr : readRequest q i with
        | mk a r =>
          cases a with
          | err _ => rfl
          | panic => rfl
          | ok z =>
            obtain ⟨q', req⟩ := z
            simp only [serveStep]
            cases hh : h s req with
            | mk b s' =>
              cases b with
              | err _ => rfl
              | panic => rfl
              | ok res =>
                simp only
                cases hw : writeResponse q' req res with
                | err _ => rfl
                | panic => rfl
                | ok b => rw [Flow.next_server (s := (q, s)) hr hh hw] at hx; cases hx
      rw [this]
      exact .done _ _
    | some z =>
      obtain ⟨o, ⟨q', s'⟩, rest⟩ := z
      obtain ⟨q2, req, res, h1, h2, h3, h4⟩ := Flow.server_next hx
      obtain rfl : q' = some q2 := h4
      obtain ⟨s2, r2, h5, h6⟩ := ih rest.length (by have := readRequest_lt h1; omega) (some q2) s' rest rfl
      refine ⟨s2, r2, ?_, h6⟩
      have : (serve h q s i).out = o ++ (serve h (some q2) s' rest).out := by
        have h1' : readRequest q i = (.ok (q2, req), rest) := h1
        have h2' : h s req = (.ok res, s') := h2
        rw [serve_eq, h1']
        simp only [serveStep, h2', h3]
      rw [this]
      exact .more hx h5

/-- What the server has done with `sent` so far, and what it will do with the rest. -/
def Has (h : Handler σ) (p : Protocol) (s0 : σ) (sent : Bytes) (reqs : List Request) (out : Bytes) (s : σ) : Prop :=
  ∀ rest, ∃ q, (q = none ∨ q = some p) ∧ serve h none s0 (sent ++ rest)
    = ⟨reqs ++ (serve h q s rest).handled, out ++ (serve h q s rest).out, (serve h q s rest).state, (serve h q s rest).fin⟩

theorem has_init (h : Handler σ) (p : Protocol) (s0 : σ) : Has h p s0 [] [] [] s0 := fun _ => ⟨none, .inl rfl, rfl⟩

theorem Has.here {h : Handler σ} {p : Protocol} {s0 s : σ} {sent out : Bytes} {reqs : List Request}
    (H : Has h p s0 sent reqs out s) : serve h none s0 sent = ⟨reqs, out, s, .closed⟩ := by
  obtain ⟨q, _, e⟩ := H []
  rw [serve_end, List.append_nil] at e
  simpa using e

theorem Has.more {h : Handler σ} {p : Protocol} {s0 s s' : σ} {sent out w b : Bytes} {reqs new : List Request}
    (H : Has h p s0 sent reqs out s)
    (hs : ∀ q rest, q = none ∨ q = some p → ∃ q', (q' = none ∨ q' = some p) ∧
        serve h q s (w ++ rest) = ⟨new ++ (serve h q' s' rest).handled, b ++ (serve h q' s' rest).out,
          (serve h q' s' rest).state, (serve h q' s' rest).fin⟩) :
    Has h p s0 (sent ++ w) (reqs ++ new) (out ++ b) s' := by
  intro rest
  obtain ⟨q, hq, e⟩ := H (w ++ rest)
  obtain ⟨q', hq', e'⟩ := hs q rest hq
  refine ⟨q', hq', ?_⟩
  rw [List.append_assoc, e, e']
  simp

theorem Has.reply {h : Handler σ} {p : Protocol} {s0 s s' : σ} {sent out w b : Bytes} {reqs new : List Request}
    (H : Has h p s0 sent reqs out s) (H' : Has h p s0 (sent ++ w) (reqs ++ new) (out ++ b) s') :
    replyTo (fun i => (serve h none s0 i).out) sent w = b := by
  show List.drop (serve h none s0 sent).out.length (serve h none s0 (sent ++ w)).out = b
  rw [H.here, H'.here]
  simp

/-! ### One call after the other -/

theorem in_turn {p : Proto} {h : Handler σ} {s0 s s' : σ} {is : List Issue} {xs : List (Res Said)}
    (hc : Converse h p s is xs s') : ∀ {sent out : Bytes} {reqs : List Request}, Has h p.wire s0 sent reqs out s →
    oneByOne (fun i => (serve h none s0 i).out) sent [] (is.map (Issue.use p)) = xs.map (Res.map Said.toOut)
    ∧ Sched.leftover (fun i => (serve h none s0 i).out) sent [] (is.map (Issue.use p)) = []
    ∧ ∃ out', Has h p.wire s0 (sent ++ wiresOf (is.map (Issue.use p))) (reqs ++ is.flatMap fun i => asked p i.ask) out' s' := by
  induction hc with
  | nil s => intro sent out reqs H; exact ⟨rfl, rfl, out, by simpa [wiresOf] using H⟩
  | @cons s s1 s' i is rss x xs fit ran gives rest ih =>
    intro sent out reqs H
    obtain ⟨w, b, hw, hs, hrd⟩ := Props.carried p i fit ran gives
    have H1 := H.more hs
    have hw' : (i.use p).wire = .ok w := hw
    have hrep := H.reply H1
    have hrd' : (i.use p).rd ([] ++ replyTo (fun i => (serve h none s0 i).out) sent w) = (x.map Said.toOut, []) := by
      have := hrd []
      rw [List.append_nil] at this
      rw [hrep, List.nil_append]
      show (((i.call p).rd b).1.map Said.toOut, ((i.call p).rd b).2) = _
      rw [this]
    obtain ⟨e1, e2, out', e3⟩ := ih H1
    refine ⟨?_, ?_, out', ?_⟩
    · rw [List.map_cons, oneByOne, hw']
      simp only [hrd', e1, List.map_cons]
    · rw [List.map_cons, Sched.leftover, hw']
      simp only [hrd', e2]
    · have e4 : wiresOf ((i :: is).map (Issue.use p)) = w ++ wiresOf (is.map (Issue.use p)) := by
        rw [List.map_cons, wiresOf, hw']
      rw [e4, List.flatMap_cons, ← List.append_assoc, ← List.append_assoc]
      exact e3

theorem willing_converse {p : Proto} {h : Handler σ} {I : σ → Prop} {A : Ask → Prop} (hw : Willing h p I A) :
    ∀ (is : List Issue), (∀ i ∈ is, A i.ask) → ∀ s, I s → ∃ xs s', Converse h p s is xs s' ∧ I s' := by
  intro is
  induction is with
  | nil => intro _ s hs; exact ⟨[], s, .nil s, hs⟩
  | cons i is ih =>
    intro hA s hs
    obtain ⟨fit, rss, s1, x, hr, hg, h1⟩ := hw s i.ask hs (hA i (by simp))
    obtain ⟨xs, s', hc, h2⟩ := ih (fun j hj => hA j (by simp [hj])) s1 h1
    exact ⟨x :: xs, s', .cons fit hr hg hc, h2⟩

theorem gives_ne {p : Proto} {a : Ask} {rss : List (List Response)} {x : Res Said} (h : Gives p a rss x) :
    x.map Said.toOut ≠ .err .io := by
  cases h <;> (intro e; cases e)

theorem converse_ne {p : Proto} {h : Handler σ} {s s' : σ} {is : List Issue} {xs : List (Res Said)}
    (hc : Converse h p s is xs s') : ∀ x ∈ xs, x.map Said.toOut ≠ .err .io := by
  induction hc with
  | nil => intro x hx; cases hx
  | cons _ _ gives _ ih =>
    intro x hx
    rcases List.mem_cons.1 hx with rfl | hx
    · exact gives_ne gives
    · exact ih x hx

theorem map_toOut {c : Call Out} : (c.map Said.out).map Said.toOut = c := by
  cases c with
  | mk w rd =>
    show (⟨w, fun i => (((rd i).1.map Said.out).map Said.toOut, (rd i).2)⟩ : Call Out) = ⟨w, rd⟩
    have : (fun i => (((rd i).1.map Said.out).map Said.toOut, (rd i).2)) = rd := by
      funext i
      cases h : rd i with
      | mk a b => cases a <;> rfl
    rw [this]

theorem use_client (p : Proto) (i : Issue) : Sched.ClientCall p.kind (i.use p) := by
  obtain ⟨a, h1, h2⟩ := i
  cases p with
  | text name =>
    cases a with
    | op o => rw [show Issue.use (.text name) ⟨.op o, h1, h2⟩ = Mc.textCall name o from map_toOut]; exact .text name o
    | version =>
      have : Issue.use (.text name) ⟨.version, h1, h2⟩ = Text.version.map fun _ => .done := by
        show (Call.mk _ _ : Call Out) = Call.mk _ _
        congr 1
        funext x
        show (((Text.version.rd x).1.map Said.version).map Said.toOut, (Text.version.rd x).2) = ((Text.version.rd x).1.map _, _)
        cases (Text.version.rd x).1 <;> rfl
      rw [this]; exact .textVersion
  | metap =>
    cases a with
    | op o => rw [show Issue.use .metap ⟨.op o, h1, h2⟩ = Mc.metaCall o from map_toOut]; exact .metap o
    | version =>
      have : Issue.use .metap ⟨.version, h1, h2⟩ = Meta.version.map fun _ => .done := by
        show (Call.mk _ _ : Call Out) = Call.mk _ _
        congr 1
        funext x
        show (((Meta.version.rd x).1.map Said.version).map Said.toOut, (Meta.version.rd x).2) = ((Meta.version.rd x).1.map _, _)
        cases (Meta.version.rd x).1 <;> rfl
      rw [this]; exact .metaVersion
  | binary =>
    cases a with
    | op o => rw [show Issue.use .binary ⟨.op o, h1, h2⟩ = Mc.binCall h1 h2 o from map_toOut]; exact .binary h1 h2 o
    | version =>
      have : Issue.use .binary ⟨.version, h1, h2⟩ = (Bin.version h1).map fun _ => .done := by
        show (Call.mk _ _ : Call Out) = Call.mk _ _
        congr 1
        funext x
        show ((((Bin.version h1).rd x).1.map Said.version).map Said.toOut, ((Bin.version h1).rd x).2)
          = (((Bin.version h1).rd x).1.map _, _)
        cases ((Bin.version h1).rd x).1 <;> rfl
      rw [this]; exact .binaryVersion h1

theorem issues_of {p : Proto} {A : Ask → Prop} : ∀ cs : List (Call Out), (∀ c ∈ cs, ∃ i : Issue, A i.ask ∧ c = i.use p) →
    ∃ is : List Issue, (∀ i ∈ is, A i.ask) ∧ cs = is.map (Issue.use p) := by
  intro cs
  induction cs with
  | nil => intro _; exact ⟨[], by simp, rfl⟩
  | cons c cs ih =>
    intro h
    obtain ⟨o, ho, rfl⟩ := h c (by simp)
    obtain ⟨os, hos, rfl⟩ := ih fun d hd => h d (by simp [hd])
    refine ⟨o :: os, ?_, rfl⟩
    intro x hx
    rcases List.mem_cons.1 hx with rfl | hx
    · exact ho
    · exact hos x hx

theorem online_server (h : Handler σ) (s0 : σ) : Online (fun i => (serve h none s0 i).out) :=
  Narrow.says_online (Flow.framed_server h) (says_server h none s0)

section
variable {P : Sched.Params T} {p : Proto} {h : Handler σ} {s0 : σ} {I : σ → Prop} {A : Ask → Prop}

theorem _root_.Verif.Spec.Share.client (hS : Share P p h s0 A) : ∀ c, P.calls c → Sched.ClientCall P.kind c := by
  intro c hc
  obtain ⟨i, _, rfl⟩ := hS.calls c hc
  rw [hS.kind]
  exact use_client p i

theorem _root_.Verif.Spec.Share.online (hS : Share P p h s0 A) : Online P.resp := hS.resp ▸ online_server h s0

/-- Some of the calls, made one after the other. -/
theorem _root_.Verif.Spec.Share.turn (hS : Share P p h s0 A) (hw : Willing h p I A) (hI : I s0) (cs : List (Call Out))
    (hcs : ∀ c ∈ cs, P.calls c) : ∃ is xs s' out, cs = is.map (Issue.use p) ∧ Converse h p s0 is xs s' ∧ I s'
      ∧ oneByOne P.resp [] [] cs = xs.map (Res.map Said.toOut) ∧ Sched.leftover P.resp [] [] cs = []
      ∧ Has h p.wire s0 (wiresOf cs) (is.flatMap fun i => asked p i.ask) out s' := by
  obtain ⟨is, hA, rfl⟩ := issues_of cs fun c hc => hS.calls c (hcs c hc)
  obtain ⟨xs, s', hc, hI'⟩ := willing_converse hw is hA s0 hI
  obtain ⟨e1, e2, out, e3⟩ := in_turn hc (has_init h p.wire s0)
  rw [hS.resp]
  exact ⟨is, xs, s', out, rfl, hc, hI', e1, e2, by simpa using e3⟩

/-- **C80 (linear).** Goroutines share a client of this module connected to a server of this module whose handler answers
the operations in use properly; any schedule, `Close` at any time.  The calls return, in the order in which they return,
what the handler's answers mean when it is called with the requests of one call after the other, in this order, up to the
first call that fails because the connection was closed or a deadline passed; when no deadline passes all later ones
fail too. -/
theorem C80_linear (hS : Share P p h s0 A) (hw : Willing h p I A) (hI : I s0) {s : Sched.State T} (hr : Sched.Reach P s) :
    ∃ good bad reqs s', s.log = good ++ bad ∧ InTurn h p s0 good reqs s' ∧ I s' ∧
      (∀ c r rest, bad = (c, r) :: rest → Sched.Fails r ∧ Sched.Trouble P s) ∧
      (¬ (P.timeout = true ∧ P.late = true) → ∀ e ∈ bad, Sched.Fails e.2) := by
  obtain ⟨good, bad, h1, h2, h3, h4⟩ := Sched.C30_linear P hS.online hS.client s hr
  obtain ⟨is, xs, s', out, e1, e2, e3, e4, _, _⟩ := hS.turn hw hI (good.map (·.1)) (by
    intro c hc
    obtain ⟨e, he, rfl⟩ := List.mem_map.1 hc
    exact Sched.log_known hr e (by rw [h1]; exact List.mem_append_left _ he))
  refine ⟨good, bad, _, s', h1, ⟨is, xs, e1, by rw [h2, e4], rfl, e2⟩, e3, h3, fun hn e he => ?_⟩
  rcases h4 hn e he with h5 | h5
  · exact h5
  · -- every call in use can be composed
    exfalso
    obtain ⟨i, hA, hi⟩ := hS.calls e.1 (Sched.log_known hr e (by rw [h1]; exact List.mem_append_right _ he))
    obtain ⟨fit, rss, s1, x, hran, hg, _⟩ := hw s0 i.ask hI hA
    obtain ⟨w, b, hwire, _⟩ := Props.carried p i fit hran hg
    have hwire' : e.1.wire = .ok w := by rw [hi]; exact hwire
    revert h5
    cases e.2 with
    | ok _ => exact id
    | err _ => intro h5; have : e.1.wire = _ := h5; rw [hwire'] at this; cases this
    | panic => intro h5; have : e.1.wire = _ := h5; rw [hwire'] at this; cases this

/-- No call is left waiting by such a server. -/
theorem _root_.Verif.Spec.Share.answered (hS : Share P p h s0 A) (hw : Willing h p I A) (hI : I s0) {s : Sched.State T} (hr : Sched.Reach P s) :
    ∀ c, P.calls c → .err .io ∉ oneByOne P.resp [] [] (s.log.map (·.1) ++ [c]) := by
  intro c hc hio
  obtain ⟨is, xs, s', out, e1, e2, e3, e4, _, _⟩ := hS.turn hw hI (s.log.map (·.1) ++ [c]) (by
    intro d hd
    rcases List.mem_append.1 hd with hd | hd
    · obtain ⟨e, he, rfl⟩ := List.mem_map.1 hd
      exact Sched.log_known hr e he
    · rw [List.mem_singleton.1 hd]; exact hc)
  rw [e4] at hio
  obtain ⟨x, hx, hxe⟩ := List.mem_map.1 hio
  exact converse_ne e2 x hx hxe

/-- **C80 (all return).** If nobody closes the connection, the other side does not hang up and no deadline passes, the
calls under way can only stop by all of them having returned; then every call has the result of its turn, and the handler
has been called with exactly the requests of these calls, in the order in which they returned. -/
theorem C80_return (hS : Share P p h s0 A) (hw : Willing h p I A) (hI : I s0) (hcl : ∀ t, ¬ P.closers t)
    (hlate : ¬ (P.timeout = true ∧ P.late = true)) {s : Sched.State T} (hr : Sched.Reach P s) (hen : s.ended = false)
    (hb : Blocked P s) :
    AllDone s ∧ ∃ reqs s', InTurn h p s0 s.log reqs s' ∧ I s'
      ∧ (serve h none s0 s.sent).handled = reqs ∧ (serve h none s0 s.sent).state = s' := by
  have hun := Sched.unclosed hcl hr
  have hdone : AllDone s := Sched.C68_served P hS.online hS.client s hr hun.fine (hS.answered hw hI hr) hb
  refine ⟨hdone, ?_⟩
  rcases Sched.story hS.online (fun c h => (hS.client c h).reader) hr with ⟨hf, _⟩ | ⟨_, _, _, _, _, _, _, ht, _⟩
  · obtain ⟨is, xs, s', out, e1, e2, e3, e4, _, e6⟩ := hS.turn hw hI (s.log.map (·.1)) (by
      intro c hc
      obtain ⟨e, he, rfl⟩ := List.mem_map.1 hc
      exact Sched.log_known hr e he)
    obtain ⟨q, x, f1, _, _, _, f5⟩ := hf.data
    have hq : q = [] := f5 fun t => by rw [hdone t]; rfl
    have hsent : s.sent = wiresOf (s.log.map (·.1)) := by rw [f1, hq, List.append_nil]
    have hlog : s.log.map (·.2) = oneByOne P.resp [] [] (s.log.map (·.1)) := hf.log
    refine ⟨_, s', ⟨is, xs, e1, by rw [hlog, e4], rfl, e2⟩, e3, ?_, ?_⟩
    · rw [hsent, e6.here]
    · rw [hsent, e6.here]
  · rcases ht with e | e | e
    · rw [hun.isOpen] at e; cases e
    · rw [hen] at e; cases e
    · exact absurd e hlate

end

/-! ### On a connection that holds only so many bytes -/

theorem replies_issue {p : Proto} {h : Handler σ} {s s' : σ} {i : Issue} {x : Res Said} (hc : Converse h p s [i] [x] s')
    (q : Option Protocol) (hq : q = none ∨ q = some p.wire) :
    ∃ w b q', (i.call p).wire = .ok w ∧ (q' = none ∨ q' = some p.wire) ∧
      Flow.Replies (Flow.server h) (q, s) w b (q', s') [] := by
  by_cases hb : ∃ op, i.ask = .op op ∧ Flow.Batch p op
  · obtain ⟨op, ho, hb⟩ := hb
    obtain ⟨a, h1, h2⟩ := i
    cases ho
    cases hc with
    | cons fit ran gives rest =>
      cases rest
      revert hb fit ran gives
      cases p with
      | text name => intro hb; cases op <;> exact hb.elim
      | metap =>
        cases op with
        | getMulti ks => intro _ fit; exact fit.elim
        | _ => intro hb; exact hb.elim
      | binary =>
        cases op with
        | getMulti ks =>
          intro _ fit gives ran
          cases gives with
          | done _ _ ho => exact ho.elim
          | binDone _ ho => exact ho.elim
          | num _ _ ho => exact ho.elim
          | binNum _ ho => exact ho.elim
          | binMulti _ rss hone hf r rs he =>
            obtain ⟨s1, r1, r2, e, hr1, hr2⟩ := ran_append ran
            obtain ⟨res, rfl, hn⟩ := ran_one hr2
            obtain ⟨rfl, e2⟩ := List.append_inj' e rfl
            have e3 := (List.cons.inj e2).1
            subst e3
            obtain ⟨q', hq', hrep⟩ := Flow.server_replies fit hr1 h1 q hq (Bin.noopHdr h2).encode
            obtain ⟨w, hw, hread⟩ := C10_getMulti h1 h2 [] (by simp)
            have hw0 : (Bin.getMulti h1 h2 []).wire = .ok (Bin.noopHdr h2).encode := rfl
            obtain rfl : (Bin.noopHdr h2).encode = w := Res.ok.inj (hw0.symm.trans hw)
            obtain ⟨mid, hr1', hr2'⟩ := hread q' hq' []
            have hr2' : mid = [] := hr2'
            subst hr2'
            rw [List.append_nil] at hr1'
            have hwr : writeResponse .binary { opcode := opNoop } (r :: rs) = .ok (writeBinary1 opNoop r) := by
              have : writeResponse .binary { opcode := opNoop } (r :: rs) = onFirst (r :: rs) fun r => .ok (writeBinary1 opNoop r) := by
                simp [writeResponse, writeBinary, opNoop, opGet]
              rw [this]
              simp [onFirst, he.1]
            exact ⟨_, _, _, rfl, .inr rfl, hrep.trans (.more (Flow.next_server (s := (q', s1)) hr1' hn hwr) (.done _ _))⟩
        | _ => intro hb; exact hb.elim
  · obtain ⟨w, o, hw, hn, _⟩ := Flow.next_issue p h s s' i x hc (fun op ho hB => hb ⟨op, ho, hB⟩) q hq
    exact ⟨w, _, _, hw, .inr rfl, .more hn (.done _ _)⟩

theorem replies_issues {p : Proto} {h : Handler σ} {s s' : σ} {is : List Issue} {xs : List (Res Said)}
    (hc : Converse h p s is xs s') : ∀ (q : Option Protocol), q = none ∨ q = some p.wire →
    ∃ b q', (q' = none ∨ q' = some p.wire) ∧
      Flow.Replies (Flow.server h) (q, s) (wiresOf (is.map (Issue.use p))) b (q', s') [] := by
  induction hc with
  | nil s => intro q hq; exact ⟨[], q, hq, .done _ _⟩
  | @cons s s1 s' i is rss x xs fit ran gives rest ih =>
    intro q hq
    obtain ⟨w, b, q1, hw, hq1, hr⟩ := replies_issue (.cons fit ran gives (.nil s1)) q hq
    obtain ⟨b2, q2, hq2, hr2⟩ := ih q1 hq1
    refine ⟨b ++ b2, q2, hq2, ?_⟩
    have hw' : (i.use p).wire = .ok w := hw
    have e4 : wiresOf ((i :: is).map (Issue.use p)) = w ++ wiresOf (is.map (Issue.use p)) := by
      rw [List.map_cons, wiresOf, hw']
    rw [e4]
    exact (hr.append (Flow.framed_server h) _).trans hr2

theorem server_waits (h : Handler σ) (q : Option Protocol) (s : σ) : (Flow.server h).next (q, s) [] = none := by
  cases hn : (Flow.server h).next (q, s) [] with
  | none => rfl
  | some z => obtain ⟨a, b, r⟩ := z; have := (Flow.framed_server h).shorter _ _ _ _ _ hn; simp at this

section
open Narrow
variable {P : Sched.Params T} {p : Proto} {h : Handler σ} {s0 : σ} {I : σ → Prop} {A : Ask → Prop} {R : Flow.Room}

/-- **C80 (finite buffers).** The same on a connection that holds only so many bytes, be there room for but one in each
direction, if nobody calls a binary `GetMulti`: when nothing more happens all calls have returned. -/
theorem C80_narrow (hR : R.Some) (hS : Share P p h s0 A) (hw : Willing h p I A) (hI : I s0) (hcl : ∀ t, ¬ P.closers t)
    (hone : ∀ op, A (.op op) → ¬ Flow.Batch p op) {q : State T (Option Protocol × σ)}
    (hl : Later P (Flow.server h) R (init (none, s0)) q) (hb : AtRest P (Flow.server h) R q) : AllDone q.users := by
  have hsays : Says (Flow.server h) (none, s0) P.resp := hS.resp ▸ says_server h none s0
  have hr := C79_refines (Flow.framed_server h) hsays hl
  refine C79_served (Flow.framed_server h) hR hsays hS.client hl (Sched.unclosed hcl hr).fine (hS.answered hw hI hr)
    (fun c u y hcc hwire hy => ?_) hb
  obtain ⟨is, xs, s', out, e1, e2, e3, _, e5, e6⟩ := hS.turn hw hI (q.users.log.map (·.1)) (by
    intro c hc
    obtain ⟨e, he, rfl⟩ := List.mem_map.1 hc
    exact Sched.log_known hr e he)
  rw [e5, hS.resp]
  -- nothing is said to an incomplete request
  obtain ⟨i, hA, rfl⟩ := hS.calls c hcc
  obtain ⟨fit, rss, s1, x, hran, hg, _⟩ := hw s' i.ask e3 hA
  obtain ⟨q1, hq1, e7⟩ := e6 u
  have hout : (serve h q1 s' u).out = [] := by
    obtain ⟨w, o, hw2, hn, _⟩ := Flow.next_issue p h s' s1 i x (.cons fit hran hg (.nil s1)) (fun op ho => hone op (ho ▸ hA)) q1 hq1
    have hw3 : (i.call p).wire = .ok (u ++ y) := hwire
    obtain rfl : u ++ y = w := Res.ok.inj (hw3.symm.trans hw2)
    have hnone : (Flow.server h).next (q1, s') u = none := by
      cases hn2 : (Flow.server h).next (q1, s') u with
      | none => rfl
      | some z =>
        obtain ⟨a, b, r⟩ := z
        have h1 := (Flow.framed_server h).append _ _ _ _ _ y hn2
        rw [h1] at hn
        simp at hn
        exact absurd hn.2.2.2 hy
    obtain ⟨s2, r2, h2, hn2⟩ := says_server h q1 s' u
    exact (h2.unique (.done (P := Flow.server h) (q1, s') u) hn2 hnone).1
  have : replyTo (fun i => (serve h none s0 i).out) (wiresOf (q.users.log.map (·.1))) u = [] := by
    show List.drop (serve h none s0 _).out.length (serve h none s0 (_ ++ u)).out = []
    rw [e6.here, e7]
    simp [hout]
  rw [this]
  simp

/-- **C80 (finite buffers, what came of it).** If the other side has not hung up and no deadline passes, all results are
those of the calls' turns, the server's handler is in the state this leaves it in, and nothing is left in the
connection. -/
theorem C80_narrow_results (hR : R.Some) (hS : Share P p h s0 A) (hw : Willing h p I A) (hI : I s0) (hcl : ∀ t, ¬ P.closers t)
    (hlate : ¬ (P.timeout = true ∧ P.late = true)) {q : State T (Option Protocol × σ)}
    (hl : Later P (Flow.server h) R (init (none, s0)) q) (hen : q.users.ended = false)
    (hb : AtRest P (Flow.server h) R q) (hdone : AllDone q.users) :
    ∃ reqs s', InTurn h p s0 q.users.log reqs s' ∧ I s' ∧ q.pipe.srv.2 = s' ∧ q.pipe.Quiet := by
  have hW := Flow.framed_server h
  have hsays : Says (Flow.server h) (none, s0) P.resp := hS.resp ▸ says_server h none s0
  have hr := C79_refines hW hsays hl
  have hun := Sched.unclosed hcl hr
  rcases Sched.story hS.online (fun c h => (hS.client c h).reader) hr with ⟨hf, _⟩ | ⟨_, _, _, _, _, _, _, ht, _⟩
  · obtain ⟨is, xs, s', out, e1, e2, e3, e4, e5, e6⟩ := hS.turn hw hI (q.users.log.map (·.1)) (by
      intro c hc
      obtain ⟨e, he, rfl⟩ := List.mem_map.1 hc
      exact Sched.log_known hr e he)
    obtain ⟨u, x, f1, f2, f3, _, f5⟩ := hf.data
    have hu : u = [] := f5 fun t => by rw [hdone t]; rfl
    subst hu
    have hsent : q.users.sent = wiresOf (q.users.log.map (·.1)) := by rw [f1, List.append_nil]
    have hlog : q.users.log.map (·.2) = oneByOne P.resp [] [] (q.users.log.map (·.1)) := hf.log
    have f3' : Sched.leftover P.resp [] [] (q.users.log.map (·.1)) ++ replyTo P.resp (wiresOf (q.users.log.map (·.1))) []
        = q.users.inbox ++ x := f3
    have hx : x = [] := by
      rw [e5, List.nil_append] at f3'
      have h0 : replyTo P.resp (wiresOf (q.users.log.map (·.1))) [] = [] := by
        unfold replyTo; rw [List.append_nil, List.drop_length]
      rw [h0] at f3'
      exact (List.append_eq_nil_iff.1 f3'.symm).2
    subst hx
    rw [List.append_nil] at f2
    obtain ⟨k, hk⟩ := pipes hW hl
    have hpre := pipes_prefix hW hsays hk
    rw [f2, List.append_assoc] at hpre
    have hnil : q.pipe.down ++ q.pipe.owed = [] := by
      obtain ⟨v, hv⟩ := hpre
      rw [List.append_assoc] at hv
      have := congrArg List.length hv
      simp only [List.length_append] at this
      apply List.length_eq_zero_iff.1
      simp only [List.length_append]
      omega
    obtain ⟨hd, ho⟩ := List.append_eq_nil_iff.1 hnil
    rcases rest_server hW hR hb with ⟨h1, _⟩ | ⟨_, h2, h3⟩
    · exact absurd ho h1
    · have hrep := hk.replies
      have hs2 := hk.sent
      rw [h3, List.append_nil] at hs2
      rw [← hs2, hsent, e1] at hrep
      obtain ⟨b, q', _, hrep2⟩ := replies_issues e2 none (.inl rfl)
      obtain ⟨_, h4, h5⟩ := hrep.unique hrep2 h2 (server_waits h q' s')
      exact ⟨_, s', ⟨is, xs, e1, by rw [hlog, e4], rfl, e2⟩, e3, by rw [h4], h3, h5, ho, hd⟩
  · rcases ht with e | e | e
    · rw [hun.isOpen] at e; cases e
    · rw [hen] at e; cases e
    · exact absurd e hlate

/-- **C80 (a binary GetMulti that does not fit).** A goroutine calls a binary `GetMulti` while nothing is on the way.  The
handler answers the requests for the first keys `as` with `rss`.  If these replies do not fit into the connection, and
the requests for the other keys `bs` do not either, that call never returns a result, no other goroutine's call does, and
the client and the server end up waiting for each other; unless the other side hangs up or a deadline passes, and then
this and all later calls fail. -/
theorem C80_multi (hR : R.Some) (hp : P.resp = fun i => (serve h none s0 i).out)
    (hcl : ∀ t, ¬ P.closers t) {q q' : State T (Option Protocol × σ)}
    (hl : Later P (Flow.server h) R (init (none, s0)) q) (hq : q.pipe.Quiet)
    (hb : q.pipe.srv.1 = none ∨ q.pipe.srv.1 = some .binary) {t : T} {h1 h2 : Bin.ReqHdr} {as bs : List Bytes}
    (hk : ∀ k ∈ as, k.length ≤ 65535) {rss : List (List Response)} {s1 : σ}
    (ran : Ran h q.pipe.srv.2 (as.map fun k => { opcode := opGet, key := k, getOpt := some { noReply := true, key := true } }) rss s1)
    (ha : R.down < (rss.flatMap getBytes).length) (hs : R.up + R.ahead ≤ 24 * bs.length + 24)
    (hpc : q.users.pc t = .locked (Mc.binCall h1 h2 (.getMulti (as ++ bs)))) (hlat : Later P (Flow.server h) R q q') :
    (q'.users.log = q.users.log ∧ q'.users.lock = some t
      ∧ (AtRest P (Flow.server h) R q' → Deadlock R q' t (Mc.binCall h1 h2 (.getMulti (as ++ bs))))) ∨
    ((∃ more, q'.users.log = q.users.log ++ (Mc.binCall h1 h2 (.getMulti (as ++ bs)), .err .io) :: more
        ∧ ∀ e ∈ more, Fails e.1 e.2)
      ∧ (q'.users.ended = true ∨ P.timeout = true ∧ P.late = true)) := by
  obtain ⟨h', e⟩ := Flow.getKQs_append h1 as bs
  obtain ⟨q2, _, hr⟩ := Flow.server_replies hk ran h1 q.pipe.srv.1 hb []
  rw [List.append_nil] at hr
  have := Flow.kq_length h' bs
  refine C79_too_much (Flow.framed_server h) hR (hp ▸ says_server h none s0) hcl hl hq hpc
    (u := (Bin.getKQs h1 as).1) (v := (Bin.getKQs h' bs).1 ++ (Bin.noopHdr h2).encode) ?_ hr ha ?_ hlat
  · show Res.ok ((Bin.getKQs h1 (as ++ bs)).1 ++ (Bin.noopHdr h2).encode) = _
    rw [e]; simp
  · rw [List.length_append, encode_raw, rawHdr_length]
    omega

end

/-! ### The hypotheses can be met -/

theorem obliging_willing {h : Handler σ} {p : Proto} (ho : Obliging h p) : Willing h p (fun _ => True) (Fit p) := by
  intro s a _ hf
  obtain ⟨rss, s', x, h1, h2⟩ := ho s a hf
  exact ⟨hf, rss, s', x, h1, h2, trivial⟩

/-- Two goroutines at a text client whose other side is a server with the handler `polite`. -/
def politeUsers : Sched.Params Bool where
  kind := .text
  timeout := false
  late := false
  resp i := (serve polite none 0 i).out
  calls c := ∃ i : Issue, Fit (.text b!"srv") i.ask ∧ c = i.use (.text b!"srv")
  closers _ := False

theorem polite_share : Share politeUsers (.text b!"srv") polite 0 (Fit (.text b!"srv")) := ⟨rfl, rfl, fun _ h => h⟩

/-- They can run to the end, whatever room there is: all that the theorems above say of it holds. -/
theorem C80_concrete (R : Flow.Room) (hR : R.Some) {q : Narrow.State Bool (Option Protocol × Nat)}
    (hl : Narrow.Later politeUsers (Flow.server polite) R (Narrow.init (none, 0)) q) :
    ∃ q', Narrow.MovesOn politeUsers (Flow.server polite) R q q' ∧ AllDone q'.users
      ∧ (q.users.ended = false → ∃ reqs s', InTurn polite (.text b!"srv") 0 q'.users.log reqs s' ∧ q'.pipe.srv.2 = s'
        ∧ q'.pipe.Quiet) := by
  have hsays : Says (Flow.server polite) (none, 0) politeUsers.resp := says_server polite none 0
  have hw := obliging_willing (polite_obliging (.text b!"srv"))
  obtain ⟨q', h1, h2⟩ := Narrow.C79_run_on (Flow.framed_server polite) hsays hl
  have hl' := hl.trans h1.later
  have hd := C80_narrow hR polite_share hw trivial (fun _ h => h) (fun op _ h => by cases op <;> exact h) hl' h2
  refine ⟨q', h1, hd, fun hen => ?_⟩
  obtain ⟨reqs, s', e1, _, e3, e4⟩ := C80_narrow_results hR polite_share hw trivial (fun _ h => h) (fun h => by cases h.1) hl'
    (by rw [h1.ended]; exact hen) h2 hd
  exact ⟨reqs, s', e1, e3, e4⟩

/-- Two goroutines at a binary client whose other side is a server with the handler `polite`. -/
def politeBinary : Sched.Params Bool where
  kind := .binary
  timeout := false
  late := false
  resp i := (serve polite none 0 i).out
  calls c := ∃ i : Issue, Fit .binary i.ask ∧ c = i.use .binary
  closers _ := False

theorem politeBinary_share : Share politeBinary .binary polite 0 (Fit .binary) := ⟨rfl, rfl, fun _ h => h⟩

/-- With buffers of 64 KiB a `GetMulti` of 5000 keys, each answered with five bytes, hangs, and with it all other
goroutines, until the other side hangs up. -/
theorem C80_concrete_multi : ∃ q : Narrow.State Bool (Option Protocol × Nat),
    Narrow.Later politeBinary (Flow.server polite) Flow.usual (Narrow.init (none, 0)) q ∧
    ∀ q', Narrow.Later politeBinary (Flow.server polite) Flow.usual q q' → q'.users.ended = true ∨ q'.users.log = [] := by
  generalize hc : Mc.binCall {} {} (.getMulti (List.replicate 2000 b!"a" ++ List.replicate 3000 b!"b")) = c
  have hk : politeBinary.calls c := ⟨⟨.op (.getMulti (List.replicate 2000 b!"a" ++ List.replicate 3000 b!"b")), {}, {}⟩, by
    intro k hk
    rcases List.mem_append.1 hk with hk | hk <;> rw [(List.mem_replicate.1 hk).2] <;> decide, by rw [← hc]; exact map_toOut.symm⟩
  have l1 : Narrow.Later politeBinary (Flow.server polite) Flow.usual (Narrow.init (none, 0)) _ := .step .refl
    (.other _ _ (.call _ false c rfl hk) rfl rfl)
  have l2 := l1.step (.other _ _ (.lock _ false c (by simp [Sched.goto_pc]) rfl) rfl rfl)
  refine ⟨_, l2, fun q' hl => ?_⟩
  have := C80_multi (R := Flow.usual) (P := politeBinary) (h := polite) (s0 := 0) ⟨by decide, by decide, by decide⟩ rfl
    (fun _ h => h) l2 ⟨rfl, rfl, rfl, rfl⟩ (.inl rfl) (t := false) (h1 := {}) (h2 := {}) (as := List.replicate 2000 b!"a")
    (bs := List.replicate 3000 b!"b") (fun k hk => by rw [(List.mem_replicate.1 hk).2]; decide)
    (polite_gets quietGet (fun _ => rfl) _ 0)
    (by rw [List.map_const', List.length_replicate, Flow.replicate_flatMap_length]; decide)
    (by rw [List.length_replicate]; decide) (by rw [hc]; simp [Sched.goto_pc]) hl
  rcases this with ⟨h1, _⟩ | ⟨_, h2⟩
  · exact .inr h1
  · rcases h2 with h2 | h2
    · exact .inl h2
    · exact absurd h2.1 (by decide)

end Served
end Verif
