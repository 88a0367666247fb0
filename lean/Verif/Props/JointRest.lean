import Verif.Props.JointTime
/-!
C81, continued: the server stays up, and all calls return.
-/

namespace Verif
namespace Joint
open Srv Spec Props
open Accept (Conn Concurrent Run Atomic atomically)

variable {T : Type} [DecidableEq T] {σ : Type}
variable {P : Nat → Sched.Params T} {p : Nat → Proto} {A : Nat → Ask → Prop} {h : Handler σ} {I : σ → Prop} {s0 : σ}

/-! ### The server stays up -/

theorem usable_writes {p : Proto} {a : Ask} (fit : Spec.Fit p a) {req : Request} (hreq : req ∈ asked p a) {rs : List Response}
    (hu : Usable p req rs) : ∃ b, writeResponse p.wire req rs = .ok b := by
  by_cases hb : ∃ op, a = .op op ∧ Flow.Batch p op
  · obtain ⟨op, ho, hb⟩ := hb
    obtain ⟨rfl, ks, rfl, hk⟩ := batch_is fit ho hb
    subst ho
    have hreq : req ∈ ks.map quietGet ++ [{ opcode := opNoop }] := hreq
    rcases List.mem_append.1 hreq with hm | hm
    · obtain ⟨k, _, rfl⟩ := List.mem_map.1 hm
      exact ⟨_, write_quietGet k rs⟩
    · rw [List.mem_singleton.1 hm] at hu ⊢
      obtain ⟨r, more, rfl, he⟩ := proper_noop hu
      refine ⟨writeBinary1 opNoop r, ?_⟩
      have : writeResponse .binary { opcode := opNoop } (r :: more) = onFirst (r :: more) fun r => .ok (writeBinary1 opNoop r) := by
        simp [writeResponse, writeBinary, opNoop, opGet]
      exact this.trans (by simp [onFirst, he.1])
  · have hb' : ∀ op, a = .op op → ¬ Flow.Batch p op := fun op ho hB => hb ⟨op, ho, hB⟩
    obtain ⟨req', hreq', w', hw', hread⟩ := Flow.arrives_ask p ⟨a, {}, {}⟩ fit hb'
    have hreq' : asked p a = [req'] := hreq'
    rw [hreq'] at hreq
    obtain rfl := List.mem_singleton.1 hreq
    obtain ⟨x, hg⟩ := proper_gives_one fit hb' hreq' hu
    have hran : Ran script [(req, .ok rs)] (asked p a) [rs] [] := by
      rw [hreq']
      exact ran_script (es := [(req, .ok rs)]) (rest := []) rfl
    obtain ⟨w, o, hw, hn, _⟩ := Flow.next_issue p script _ _ ⟨a, {}, {}⟩ x (.cons fit hran hg (.nil _)) hb' none (.inl rfl)
    obtain rfl : w' = w := Res.ok.inj (hw'.symm.trans hw)
    obtain ⟨q, req2, res, e1, e2, e3, _⟩ := Flow.server_next hn
    have e4 := hread none (.inl rfl) []
    rw [List.append_nil] at e4
    have e1 : readRequest none w' = _ := e1
    rw [e4] at e1
    cases e1
    have e2 : script [(req, .ok rs)] req = _ := e2
    have e5 : script [(req, .ok rs)] req = (.ok rs, []) := by simp [script]
    rw [e5] at e2
    cases e2
    exact ⟨o, e3⟩

/-- **C81 (the server stays up).** No client and no schedule can make the server fail: it never panics, and it gives up a
connection only if the network lost it or the client has closed it. -/
theorem C81_up (hC : Clients P p A) (hw : ∀ c, Courteous h (p c) I (A c)) (hI : I s0) {q : State T (Atomic σ)}
    (hl : Later P (atomically h) (init (.init s0)) q) :
    q.server.down = false ∧ ∀ c k, q.server.conns c = some k →
      k.fin = none ∨ k.fin = some .lost ∨ k.fin = some .served ∧ (q.users c).isOpen = false := by
  have conn : ∀ c k, q.server.conns c = some k → k.fin = none ∨ k.fin = some .lost ∨ k.fin = some .served ∧ k.eof = true := by
    intro c k hk
    obtain ⟨is, hA, hp⟩ := issued hC hl c
    obtain ⟨more, hm⟩ := ((net_ok hl c k hk).1).trans hp
    have hr := reads_issues is (fun i hi => fits hw hI c _ (hA i hi)) none (.inl rfl)
    rw [← hm] at hr
    obtain ⟨todo, e, _, _, hfin⟩ := legible_run (server_run hl) (p c).wire k hk more _ hr
    have hgood : ∀ e ∈ k.done, ∃ rs, e.2 = .ok rs ∧ Usable (p c) e.1 rs := fun e he =>
      (handled_well hC hw hI hl).2 c e ((done_prefix hl hk).subset he)
    rcases hfin with h1 | h1 | h1 | ⟨x, hx, h1⟩ | ⟨x, hx, rs, h1, h2⟩
    · exact .inl h1
    · exact .inr (.inl h1)
    · exact .inr (.inr h1)
    · obtain ⟨rs, h3, _⟩ := hgood x hx
      exact absurd h3 (h1 rs)
    · exfalso
      obtain ⟨rs', h3, h4⟩ := hgood x hx
      rw [h1] at h3
      cases h3
      have hm : x.1 ∈ is.flatMap fun i => asked (p c) i.ask := by
        rw [e]
        refine List.mem_append_left _ (List.mem_append_left _ (List.mem_map.2 ⟨x, hx, rfl⟩))
      obtain ⟨i, hi, hreq⟩ := List.mem_flatMap.1 hm
      obtain ⟨b, hb⟩ := usable_writes (fits hw hI c _ (hA i hi)) hreq h4
      exact h2 b hb
  refine ⟨?_, fun c k hk => ?_⟩
  · cases hd : q.server.down with
    | false => rfl
    | true =>
      exfalso
      obtain ⟨c, k, hk, hf⟩ := crashed_conn (server_run hl) hd
      rcases conn c k hk with h1 | h1 | h1
      · rw [hf] at h1; cases h1
      · rw [hf] at h1; cases h1
      · rw [hf] at h1; cases h1.1
  · rcases conn c k hk with h1 | h1 | h1
    · exact .inl h1
    · exact .inr (.inl h1)
    · exact .inr (.inr ⟨h1.1, (net_ok hl c k hk).2 h1.2⟩)

/-! ### At rest -/

/-- First the answers that were given, then the handler's. -/
def follow (h : Handler σ) : Handler (List (Request × Res (List Response)) × σ) := fun z req =>
  match z.1 with
  | [] => ((h z.2 req).1, [], (h z.2 req).2)
  | e :: l => if e.1 = req then (e.2, l, z.2) else ((h z.2 req).1, e :: l, (h z.2 req).2)

theorem gave_follow (h : Handler σ) (s : σ) (l rest : List (Request × Res (List Response))) :
    Gave (follow h) (l ++ rest, s) l (rest, s) := by
  induction l with
  | nil => rfl
  | cons e l ih =>
    obtain ⟨r, x⟩ := e
    have : follow h ((r, x) :: l ++ rest, s) r = (x, l ++ rest, s) := by simp [follow]
    exact ⟨by rw [this], by rw [this]; exact ih⟩

theorem courteous_follow {p : Proto} {A : Ask → Prop} (hw : Courteous h p I A) :
    Courteous (follow h) p (fun z => AllProper p z.1 ∧ I z.2) A := by
  rintro ⟨l, s⟩ a ⟨hp, hI⟩ hA
  have hp : AllProper p l := hp
  have hI : I s := hI
  obtain ⟨fit, hall⟩ := hw s a hI hA
  refine ⟨fit, fun req hreq => ?_⟩
  obtain ⟨rs, h1, h2, h3⟩ := hall req hreq
  cases l with
  | nil => exact ⟨rs, h1, h2, by simp [AllProper, follow], h3⟩
  | cons e l =>
    by_cases he : e.1 = req
    · obtain ⟨rs', h4, h5⟩ := hp e (by simp)
      have : follow h (e :: l, s) req = (e.2, l, s) := by simp [follow, he]
      rw [this]
      exact ⟨rs', h4, by rw [← he]; exact h5, fun x hx => hp x (by simp [hx]), hI⟩
    · have : follow h (e :: l, s) req = ((h s req).1, e :: l, (h s req).2) := by simp [follow, he]
      rw [this]
      exact ⟨rs, h1, h2, hp, h3⟩

theorem courteous_ran {p : Proto} (reqs : List Request) (hall : ∀ s, I s → ∀ req ∈ reqs, ∃ rs, (h s req).1 = .ok rs ∧ Usable p req rs ∧ I (h s req).2) :
    ∀ s, I s → ∃ rss s', Ran h s reqs rss s' ∧ I s' ∧ rss.length = reqs.length ∧ ∀ z ∈ reqs.zip rss, Usable p z.1 z.2 := by
  induction reqs with
  | nil => intro s hI; exact ⟨[], s, .nil s, hI, rfl, by simp⟩
  | cons r reqs ih =>
    intro s hI
    obtain ⟨rs, h1, h2, h3⟩ := hall s hI r (by simp)
    obtain ⟨rss, s', e1, e2, e3, e4⟩ := ih (fun s hI req hr => hall s hI req (by simp [hr])) _ h3
    refine ⟨rs :: rss, s', .cons (s1 := (h s r).2) (by rw [← h1]) e1, e2, by simp [e3], fun z hz => ?_⟩
    rw [List.zip_cons_cons] at hz
    rcases List.mem_cons.1 hz with rfl | hz
    · exact h2
    · exact e4 z hz

theorem courteous_willing {p : Proto} {A : Ask → Prop} (hw : Courteous h p I A) : Willing h p I A := by
  intro s a hI hA
  have fit := (hw s a hI hA).1
  obtain ⟨rss, s', e1, e2, e3, e4⟩ := courteous_ran (asked p a) (fun s hI => (hw s a hI hA).2) s hI
  obtain ⟨x, hx⟩ := proper_gives fit e3 e4
  exact ⟨fit, rss, s', x, e1, hx, e2⟩

theorem rest_user {H : Concurrent σ} {q : State T σ} (hb : Rests P H q) (c : Nat) :
    Blocked { P c with resp := fun _ => q.out c } (q.users c) := by
  intro s' hw hen
  refine hb { q with users := fun d => if d = c then s' else q.users d } ⟨.user q c s' hw.1, fun he => ?_, fun d => ?_, fun d => ?_,
    fun d k hk hf => ⟨k, hk, hf⟩, fun _ hn => hn, rfl⟩
  · have : (if c = c then s' else q.users c) = q.users c := congrArg (fun z : State T σ => z.users c) he
    rw [if_pos rfl] at this
    exact hw.2.1 this
  · show ¬ Starts (q.users d) (if d = c then s' else q.users d)
    by_cases hd : d = c
    · subst hd; rw [if_pos rfl]; exact hw.2.2
    · rw [if_neg hd]; rintro ⟨t, h1, h2⟩; exact h2 h1
  · show (if d = c then s' else q.users d).ended = _
    by_cases hd : d = c
    · subst hd; rw [if_pos rfl]; exact hen
    · rw [if_neg hd]

theorem put_moves {H : Concurrent σ} {q : State T σ} (hb : Rests P H q)
    (hnet : ∀ c k, q.server.conns c = some k → k.sent <+: (q.users c).sent ∧ (k.eof = true → (q.users c).isOpen = false))
    {a : Accept.Who} {w' : Accept.World σ} (hs : Accept.Step H q.server a w') {c : Nat} {k k' : Conn} (hk : q.server.conns c = some k)
    (hc : w'.conns = (q.server.put c k').conns) (hlis : w'.listening = q.server.listening) (hf : k'.fin ≠ some .lost)
    (hne : k' ≠ k) (h1 : k'.sent <+: (q.users c).sent) (h2 : k'.eof = true → (q.users c).isOpen = false) : False := by
  have at' : ∀ d x, w'.conns d = some x → (d = c ∧ x = k') ∨ q.server.conns d = some x := by
    intro d x hx
    rw [hc] at hx
    have hx : (if d = c then some k' else q.server.conns d) = some x := hx
    by_cases hd : d = c
    · rw [if_pos hd] at hx; cases hx; exact .inl ⟨hd, rfl⟩
    · rw [if_neg hd] at hx; exact .inr hx
  refine hb { q with server := w' } ⟨.server q a w' hs fun d x hx => ?_, fun he => ?_, ?_, fun _ => rfl, fun d x hx hfx => ?_, fun d hd => ?_, hlis⟩
  · rcases at' d x hx with ⟨rfl, rfl⟩ | hx
    · exact ⟨h1, h2⟩
    · exact hnet d x hx
  · have : w' = q.server := congrArg (fun z : State T σ => z.server) he
    rw [this] at hc
    have hc := congrFun hc c
    rw [put_conns_self, hk] at hc
    exact hne (Option.some.inj hc).symm
  · rintro d ⟨t, h1, h2⟩; exact h2 h1
  · rcases at' d x hx with ⟨rfl, rfl⟩ | hx
    · exact absurd hfx hf
    · exact ⟨x, hx, hfx⟩
  · show w'.conns d = none
    rw [hc]
    show (if d = c then some k' else q.server.conns d) = none
    have hd : q.server.conns d = none := hd
    rw [if_neg (by rintro rfl; rw [hk] at hd; cases hd), hd]

/-- At rest the server has dealt with everything. -/
theorem rest_server {q : State T (Atomic σ)} (hl : Later P (atomically h) (init (.init s0)) q) (hb : Rests P (atomically h) q)
    (up : q.server.down = false) {c : Nat} {k : Conn} (hk : q.server.conns c = some k) (ho : k.fin = none)
    (hop : (q.users c).isOpen = true) : k.sent = (q.users c).sent ∧ k.busy = none ∧ Waiting k := by
  have hnet := net_ok hl
  obtain ⟨⟨bs, hbs⟩, he⟩ := hnet c k hk
  have heof : k.eof = false := by
    cases hx : k.eof with
    | false => rfl
    | true => rw [he hx] at hop; cases hop
  have hsent : k.sent = (q.users c).sent := by
    cases bs with
    | nil => rw [List.append_nil] at hbs; exact hbs
    | cons b bs =>
      exfalso
      refine put_moves hb hnet (.arrive q.server c k (b :: bs) up hk heof) hk rfl rfl (by show k.fin ≠ _; rw [ho]; simp) (fun hx => ?_)
        (by show k.sent ++ b :: bs <+: _; rw [hbs]; exact List.prefix_refl _) he
      have : k.sent ++ b :: bs = k.sent := congrArg Conn.sent hx
      have := congrArg List.length this
      simp at this
  have hslot := slot_run (guarded_atomically h) (server_run hl) c
  rw [hk] at hslot
  have hbusy : k.busy = none := by
    cases hb' : k.busy with
    | none => rfl
    | some z =>
      exfalso
      obtain ⟨pr, req⟩ := z
      simp only [Slot, hb'] at hslot
      rcases hslot with ⟨h1, _, _⟩ | ⟨x, _, h1, _⟩
      · refine hb { q with server := _ } ⟨.server q .handler _ (.work q.server _ up ⟨c, req, h1, rfl⟩) hnet, fun he => ?_, ?_,
          fun _ => rfl, fun d x hx hfx => ⟨x, hx, hfx⟩, fun _ hd => hd, rfl⟩
        · have := congrArg (fun z : State T (Atomic σ) => z.server.state.log.length) he
          simp at this
        · rintro d ⟨t, h1, h2⟩; exact h2 h1
      · have done : ∀ {w' : Accept.World (Atomic σ)} {k' : Conn}, Accept.Step (atomically h) q.server (.conn c) w' →
            w'.conns = (q.server.put c k').conns → w'.listening = q.server.listening → k'.fin ≠ some .lost → k'.busy = none →
            k'.sent = k.sent → k'.eof = k.eof → False := by
          intro w' k' hs hc hlis hf hbz h1 h2
          refine put_moves hb hnet hs hk hc hlis hf (fun hx => ?_) (by rw [h1, hsent]; exact List.prefix_refl _) (by rw [h2]; exact he)
          rw [hx, hb'] at hbz; cases hbz
        have hret : (atomically h).ret q.server.state c x { q.server.state with ready := fun d => if d = c then none else q.server.state.ready d } :=
          ⟨h1, rfl⟩
        cases x with
        | err e => exact done (.refuse q.server c k pr req e _ up hk ho hb' hret) rfl rfl (by simp) rfl rfl rfl
        | panic => exact done (.handlerCrash q.server c k pr req _ up hk ho hb' hret) rfl rfl (by simp) rfl rfl rfl
        | ok res =>
          cases hw : writeResponse pr req res with
          | ok b => exact done (.answer q.server c k pr req res _ b up hk ho hb' hret hw) rfl rfl (by show k.fin ≠ _; rw [ho]; simp) rfl rfl rfl
          | err e => exact done (.unwritable q.server c k pr req res e _ up hk ho hb' hret hw) rfl rfl (by simp) rfl rfl rfl
          | panic => exact done (.writeCrash q.server c k pr req res _ up hk ho hb' hret hw) rfl rfl (by simp) rfl rfl rfl
  refine ⟨hsent, hbusy, Classical.byContradiction fun hwait => ?_⟩
  have pre : k.sent <+: (q.users c).sent := by rw [hsent]; exact List.prefix_refl _
  cases hq : readRequest k.proto k.avail with
  | mk x r =>
    cases x with
    | ok z =>
      refine put_moves hb hnet (.read q.server c k z.1 z.2 r up hk ho hbusy hq) hk rfl rfl (by show k.fin ≠ _; rw [ho]; simp) (fun hx => ?_) pre he
      have : some (z.1, z.2) = k.busy := congrArg Conn.busy hx
      rw [hbusy] at this; cases this
    | panic =>
      refine put_moves hb hnet (.crash q.server c k r up hk ho hbusy hq) hk rfl rfl (by simp) (fun hx => ?_) pre he
      have : some Accept.Fin.crashed = k.fin := congrArg Conn.fin hx
      rw [ho] at this; cases this
    | err e =>
      refine put_moves hb hnet (.bad q.server c k e r up hk ho hbusy hq ?_) hk rfl rfl (by simp) (fun hx => ?_) pre he
      · refine .inl fun hx => hwait ⟨heof, ?_⟩
        rw [hq, hx]
      · have : some Accept.Fin.served = k.fin := congrArg Conn.fin hx
        rw [ho] at this; cases this

/-- **C81 (all return).** When nothing more happens by itself, all calls of a client have returned, whatever the other
clients do, if none of its goroutines has panicked, and if the server has accepted its connection and has not lost it.
If nothing has happened to the connection, all its calls have results, and the handler has been called for this client
with exactly the requests of these calls, in the order in which they returned. -/
theorem C81_return (hC : Clients P p A) (hw : ∀ c, Courteous h (p c) I (A c)) (hI : I s0) {q : State T (Atomic σ)}
    (hl : Later P (atomically h) (init (.init s0)) q) (hb : Rests P (atomically h) q) (c : Nat) (hcr : (q.users c).crashed = false)
    (hacc : (q.users c).isOpen = true → (q.users c).ended = false → (q.users c).sent ≠ [] →
      ∃ k, q.server.conns c = some k ∧ k.fin ≠ some .lost) :
    AllDone (q.users c) ∧
    (¬ Sched.Trouble (P c) (q.users c) → Resulted (p c) (q.users c).log (callsFrom c q.server.state.log)) := by
  have hgood := handled_well hC hw hI hl
  obtain ⟨up, hfin⟩ := C81_up hC hw hI hl
  obtain ⟨l, hl0⟩ : ∃ l, l = callsFrom c q.server.state.log := ⟨_, rfl⟩
  have hr : Sched.Reach { P c with resp := fun i => (serve (follow h) none (l, q.server.state.own) i).out } (q.users c) := by
    refine alone hl c _ (follow h) _ fun k hk => ?_
    obtain ⟨rest, hrest⟩ := done_prefix hl hk
    rw [hl0, ← hrest]
    exact ⟨_, gave_follow h _ _ _⟩
  have hS : Share { P c with resp := fun i => (serve (follow h) none (l, q.server.state.own) i).out } (p c) (follow h)
      (l, q.server.state.own) (A c) := ⟨hC.kind c, rfl, hC.calls c⟩
  have hwill := courteous_willing (courteous_follow (hw c))
  have hI' : (fun z : List (Request × Res (List Response)) × σ => AllProper (p c) z.1 ∧ I z.2) (l, q.server.state.own) :=
    ⟨by rw [hl0]; exact hgood.2 c, hgood.1⟩
  have hblock : Blocked { P c with resp := fun i => (serve (follow h) none (l, q.server.state.own) i).out } (q.users c) := by
    intro s' hws
    refine rest_user hb c s' ⟨step_other hws.1 fun ho hen x y hx => ?_, hws.2⟩
    refine ⟨y, ?_⟩
    rw [← hx]
    show q.out c = (serve (follow h) none (l, q.server.state.own) (q.users c).sent).out
    have hnil := (Served.online_server (follow h) (l, q.server.state.own)).1
    by_cases hs : (q.users c).sent = []
    · rw [hs]
      refine Eq.trans ?_ hnil.symm
      unfold State.out
      cases hk : q.server.conns c with
      | none => rfl
      | some k =>
        show k.out = []
        have hp := (net_ok hl c k hk).1
        rw [hs] at hp
        have hks := List.prefix_nil.1 hp
        obtain ⟨rest, hrest⟩ := done_prefix hl hk
        have hpre := (C56_prefix (server_run hl) hk [] (fun _ => rfl) (gave_follow h q.server.state.own k.done rest)).2
        rw [hrest, ← hl0, hks, List.nil_append] at hpre
        have hnil' : (serve (follow h) none (l, q.server.state.own) []).out = [] := hnil
        rw [hnil'] at hpre
        exact List.prefix_nil.1 hpre
    · obtain ⟨k, hk, hnl⟩ := hacc ho hen hs
      have hf : k.fin = none := by
        rcases hfin c k hk with h1 | h1 | h1
        · exact h1
        · exact absurd h1 hnl
        · rw [h1.2] at ho; cases ho
      obtain ⟨h1, h2, h3⟩ := rest_server hl hb up hk hf ho
      obtain ⟨rest, hrest⟩ := done_prefix hl hk
      have hg := gave_follow h q.server.state.own k.done rest
      rw [hrest, ← hl0] at hg
      have := C56_caught_up (server_run hl) hk hf h2 h3 hg
      rw [← h1, this]
      unfold State.out
      rw [hk]
  have hdone : AllDone (q.users c) := Sched.C68_served _ hS.online hS.client _ hr hcr (hS.answered hwill hI' hr) hblock
  refine ⟨hdone, fun hn => ?_⟩
  obtain ⟨mine, rest, e1, e2, e3⟩ := C81_under_way hC hw hI hl c hn
  rcases e3 with rfl | ⟨t, i, todo, _, _, h1 | h1, _⟩
  · rw [e1, List.append_nil]; exact e2
  · rw [hdone t] at h1; cases h1
  · rw [hdone t] at h1; cases h1

end Joint
end Verif
