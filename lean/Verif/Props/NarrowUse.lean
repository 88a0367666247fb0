import Verif.Props.NarrowLock
import Verif.Props.FlowServer
import Verif.Props.SchedBin
/-!
C79 for the operations of the clients on connections to a memcached server.
-/

namespace Verif
namespace Mc
open Kv Spec

/-- Such operations read all that is sent to them. -/
theorem leftover_session (call : Op → Call Out) (s0 : Store) : ∀ (ops : List Op) (s s' : Store) (sent : Bytes)
    (rs : List (Res Out)), (∀ x, output s0 (sent ++ x) = output s0 sent ++ output s x) →
    session call s (ops.map fun o => (0, o)) = some (rs, s') →
    Sched.leftover (output s0) sent [] (ops.map call) = [] := by
  intro ops
  induction ops with
  | nil =>
    intro s s' sent rs _ h
    simp only [List.map_nil, session, Option.some.injEq, Prod.mk.injEq] at h
    rfl
  | cons o ops ih =>
    intro s s' sent rs hout h
    rw [List.map_cons] at h ⊢
    unfold session at h
    have htick : s.tick 0 = s := rfl
    rw [htick] at h
    cases he : exchange (call o) s with
    | none => rw [he] at h; cases h
    | some q =>
      obtain ⟨res, s1⟩ := q
      rw [he] at h
      simp only [Option.map_eq_some_iff] at h
      obtain ⟨⟨rs2, s2⟩, h1, h2⟩ := h
      simp only [Prod.mk.injEq] at h2
      obtain ⟨rfl, rfl⟩ := h2
      unfold exchange at he
      cases hw : (call o).wire with
      | err e => rw [hw] at he; cases he
      | panic => rw [hw] at he; cases he
      | ok w =>
        rw [hw] at he
        simp only at he
        cases ha : answer s w with
        | none => rw [ha] at he; cases he
        | some q =>
          obtain ⟨reply, s3⟩ := q
          rw [ha] at he
          simp only at he
          have hrep : replyTo (output s0) sent w = reply := by
            unfold replyTo
            rw [hout w, List.drop_left]
            have := output_answer ha []
            rw [List.append_nil] at this
            rw [this, show output s3 [] = [] from rfl, List.append_nil]
          cases hr : (call o).rd reply with
          | mk res' rest =>
            rw [hr] at he
            cases rest with
            | cons b rest => cases he
            | nil =>
              simp only at he
              split at he
              · cases he
              · simp only [Option.some.injEq, Prod.mk.injEq] at he
                obtain ⟨rfl, rfl⟩ := he
                have hnext : ∀ x, output s0 (sent ++ w ++ x) = output s0 (sent ++ w) ++ output s3 x := by
                  intro x
                  have e1 := output_answer ha x
                  have e2 := output_answer ha []
                  rw [List.append_nil, show output s3 [] = [] from rfl, List.append_nil] at e2
                  rw [List.append_assoc, hout, e1, hout w, e2, List.append_assoc]
                have := ih s3 s2 (sent ++ w) rs2 hnext h1
                unfold Sched.leftover
                simp only [hw, List.nil_append, hrep, hr, this]

end Mc
namespace McBin
open Kv Spec

/-- The same for a binary server. -/
theorem leftover_binary (te : Entry → Bytes) (hte : ∀ e, (te e).length < 256) (s0 : Store) : ∀ (us : List BinUse) (s : Store)
    (sent : Bytes), (∀ x, output te s0 (sent ++ x) = output te s0 sent ++ output te s x) → GoodStore s →
    (∀ u ∈ us, u.Ok) → s.nextCas + us.length < 2 ^ 63 →
    Sched.leftover (output te s0) sent [] (us.map (·.call)) = [] := by
  intro us
  induction us with
  | nil => intro s sent _ _ _ _; rfl
  | cons u us ih =>
    intro s sent hout hs hok hc
    have hu := hok u (by simp)
    simp only [List.length_cons] at hc
    have hcall := Props.C52_binary_call te hte u.h1 u.h2 u.op hu.args s hs hu.token
    rw [tidy_left hu.tidy] at hcall
    obtain ⟨w, rep, hw, ha, hr, hne⟩ := exchange_parts hcall
    have hn := Props.binApi_next u.op s hu.args hs (by omega)
    have e2 := output_answer ha []
    rw [List.append_nil, show output te (binApi s u.op).2 [] = [] from rfl, List.append_nil] at e2
    have hrep : replyTo (output te s0) sent w = rep := by
      unfold replyTo
      rw [hout w, List.drop_left, e2]
    have hnext : ∀ x, output te s0 (sent ++ w ++ x) = output te s0 (sent ++ w) ++ output te (binApi s u.op).2 x := by
      intro x
      rw [List.append_assoc, hout, output_answer ha x, hout w, e2, List.append_assoc]
    have := ih (binApi s u.op).2 (sent ++ w) hnext hn.1 (fun v hv => hok v (by simp [hv]))
      (by have := hn.2; omega)
    rw [List.map_cons]
    unfold Sched.leftover
    have hw' : u.call.wire = .ok w := hw
    have hr' : u.call.rd rep = ((binApi s u.op).1, []) := hr
    simp only [hw', List.nil_append, hrep, hr', this]

end McBin
namespace Narrow
open Spec Flow Kv

variable {T : Type} [DecidableEq T] {σ : Type}

/-- Calls of one request each, on a server that has answered them. -/
theorem replies_singles {W : Peer σ} (cs : List (Call Out)) : ∀ s0,
    (∀ c ∈ cs, ∃ w, c.wire = .ok w ∧ ∀ s, ∃ o s', W.next s w = some (o, s', [])) → Framed W →
    ∃ o s', Replies W s0 (wiresOf cs) o s' [] := by
  induction cs with
  | nil => intro s0 _ _; exact ⟨[], s0, .done _ _⟩
  | cons c cs ih =>
    intro s0 h hW
    obtain ⟨w, hw, hn⟩ := h c (by simp)
    obtain ⟨o, s1, h1⟩ := hn s0
    obtain ⟨o2, s2, h2⟩ := ih s1 (fun d hd => h d (by simp [hd])) hW
    refine ⟨o ++ o2, s2, ?_⟩
    simp only [wiresOf, hw]
    exact .more (hW.append _ _ _ _ _ (wiresOf cs) h1) h2

/-- **C79 (one request each).** If every call in use sends one request, and what the calls have left unread fits into the
connection, then no deadlock is possible, be there room for but one byte in each direction: the calls under way can
only stop by all of them returning. -/
theorem C79_single {P : Sched.Params T} {W : Peer σ} (hW : Framed W) {R : Room} (hR : R.Some) {s0 : σ}
    (hs : Says W s0 P.resp) (hc : ∀ c, P.calls c → Sched.ClientCall P.kind c) {q : State T σ}
    (h : Later P W R (init s0) q) (hcr : q.users.crashed = false)
    (hans : ∀ c, P.calls c → .err .io ∉ oneByOne P.resp [] [] (q.users.log.map (·.1) ++ [c]))
    (hleft : (Sched.leftover P.resp [] [] (q.users.log.map (·.1))).length ≤ R.down)
    (hone : ∀ c, P.calls c → ∃ w, c.wire = .ok w ∧ ∀ s, ∃ o s', W.next s w = some (o, s', []))
    (hb : AtRest P W R q) : AllDone q.users := by
  refine C79_served hW hR hs hc h hcr hans (fun c p y hcc hw hy => ?_) hb
  obtain ⟨o, s', hrep⟩ := replies_singles (W := W) (q.users.log.map (·.1)) s0 (by
    intro d hd
    obtain ⟨e, he, rfl⟩ := List.mem_map.1 hd
    exact hone e.1 (Sched.log_known (C79_refines hW hs h) e he)) hW
  have idle : W.next s' [] = none := by
    cases hn : W.next s' [] with
    | none => rfl
    | some z => obtain ⟨a, b, r⟩ := z; have := hW.shorter _ _ _ _ _ hn; simp at this
  have part : W.next s' p = none := by
    cases hn : W.next s' p with
    | none => rfl
    | some z =>
      obtain ⟨a, b, r⟩ := z
      have h1 := hW.append _ _ _ _ _ y hn
      obtain ⟨w, hw', h2⟩ := hone c hcc
      rw [hw] at hw'
      cases hw'
      obtain ⟨o2, s2, h3⟩ := h2 s'
      rw [h1] at h3
      simp at h3
      exact absurd h3.2.2.2 hy
  have e1 : P.resp (wiresOf (q.users.log.map (·.1))) = o := by
    obtain ⟨s2, r2, h2, hn⟩ := hs (wiresOf (q.users.log.map (·.1)))
    exact (h2.unique hrep hn idle).1
  have e2 : P.resp (wiresOf (q.users.log.map (·.1)) ++ p) = o := by
    obtain ⟨s2, r2, h2, hn⟩ := hs (wiresOf (q.users.log.map (·.1)) ++ p)
    exact (h2.unique (hrep.append hW p) hn part).1
  have : replyTo P.resp (wiresOf (q.users.log.map (·.1))) p = [] := by
    unfold replyTo
    rw [e1, e2, List.drop_length]
  rw [this, List.append_nil]
  exact hleft

theorem says_memcached (store : Store) : Says memcached store (Mc.output store) := by
  intro i
  generalize hn : i.length = n
  induction n using Nat.strongRecOn generalizing store i with
  | _ n ih =>
    cases hs : Mc.step store i with
    | none => exact ⟨store, i, by rw [Mc.output_none hs]; exact .done _ _, hs⟩
    | some z =>
      obtain ⟨o, s', r⟩ := z
      obtain ⟨s2, r2, h1, h2⟩ := ih r.length (by have := Mc.step_lt hs; omega) s' r rfl
      exact ⟨s2, r2, by rw [Mc.output_step hs]; exact .more hs h1, h2⟩

theorem says_binary (te : Entry → Bytes) (store : Store) : Says (memcachedBinary te) store (McBin.output te store) := by
  intro i
  generalize hn : i.length = n
  induction n using Nat.strongRecOn generalizing store i with
  | _ n ih =>
    cases hs : McBin.step1 te store i with
    | none => exact ⟨store, i, by rw [McBin.output_none hs]; exact .done _ _, hs⟩
    | some z =>
      obtain ⟨o, s', r⟩ := z
      obtain ⟨s2, r2, h1, h2⟩ := ih r.length (by have := McBin.step1_lt hs; omega) s' r rfl
      exact ⟨s2, r2, by rw [McBin.output_step hs]; exact .more hs h1, h2⟩

theorem log_ops {Q : Op → Prop} {call : Op → Call Out} {P : Sched.Params T} {s : Sched.State T} (h : Sched.Reach P s)
    (hc : ∀ c, P.calls c → ∃ op, Q op ∧ c = call op) : ∃ ops : List Op, (∀ o ∈ ops, Q o) ∧ s.log.map (·.1) = ops.map call :=
  Sched.ops_of_calls _ fun d hd => by
    obtain ⟨e, he, rfl⟩ := List.mem_map.1 hd
    exact hc e.1 (Sched.log_known h e he)

/-- **C79 (text).** Goroutines sharing a text connection to a memcached server, with any operations, `GetMulti` included,
cannot get stuck however little the connection holds. -/
theorem C79_text {P : Sched.Params T} {R : Room} (hR : R.Some) (name : Bytes) (store : Store) (hs : GoodStore store)
    (hk : P.kind = .text) (hp : P.resp = Mc.output store) (hcl : ∀ t, ¬ P.closers t)
    (hc : ∀ c, P.calls c → ∃ op, GoodOp op ∧ c = Mc.textCall name op)
    {q : State T Store} (h : Later P memcached R (init store) q) (hcas : store.nextCas + q.users.log.length + 1 < 2 ^ 63)
    (hb : AtRest P memcached R q) : AllDone q.users := by
  have hsays : Says memcached store P.resp := hp ▸ says_memcached store
  have hr := C79_refines framed_memcached hsays h
  refine C79_single framed_memcached hR hsays
    (fun c hcc => by obtain ⟨op, _, rfl⟩ := hc c hcc; rw [hk]; exact .text name op) h (Sched.unclosed hcl hr).fine ?_ ?_ ?_ hb
  · intro c hcc
    obtain ⟨ops, hops, hlog⟩ := log_ops hr hc
    obtain ⟨op, hop, rfl⟩ := hc c hcc
    have hlen : ops.length = q.users.log.length := by have := congrArg List.length hlog; simpa using this.symm
    have hh := Props.C52_text_history name ((ops ++ [op]).map fun o => (0, o)) store
      (by intro ev hev; obtain ⟨o, ho, rfl⟩ := List.mem_map.1 hev
          rcases List.mem_append.1 ho with ho | ho
          · exact hops o ho
          · rw [List.mem_singleton.1 ho]; exact hop) hs (by simp only [List.length_map, List.length_append, hlen, List.length_singleton]; omega)
    have e : q.users.log.map (·.1) ++ [Mc.textCall name op] = (ops ++ [op]).map (Mc.textCall name) := by simp [hlog]
    rw [e, hp, Mc.oneByOne_session (Mc.textCall name) store (ops ++ [op]) store _ [] _
      (by intro x; rw [List.nil_append]; rfl) hh]
    exact Sched.runApi_not_io (Sched.textApi_not_io name) _ _
  · obtain ⟨ops, hops, hlog⟩ := log_ops hr hc
    have hlen : ops.length = q.users.log.length := by have := congrArg List.length hlog; simpa using this.symm
    have hh := Props.C52_text_history name (ops.map fun o => (0, o)) store
      (by intro ev hev; obtain ⟨o, ho, rfl⟩ := List.mem_map.1 hev; exact hops o ho) hs (by simp only [List.length_map, hlen]; omega)
    rw [hlog, hp, Mc.leftover_session (Mc.textCall name) store ops store _ [] _ (by intro x; rw [List.nil_append]; rfl) hh]
    simp
  · intro c hcc
    obtain ⟨op, hop, rfl⟩ := hc c hcc
    obtain ⟨w, l, hw, hl⟩ := text_sends name op hop
    exact ⟨w, hw, fun s => ⟨_, _, by have := Mc.step_sends hl s []; rwa [List.append_nil] at this⟩⟩

/-- **C79 (meta).** The same for a meta connection on which nobody uses `GetMulti`. -/
theorem C79_meta {P : Sched.Params T} {R : Room} (hR : R.Some) (store : Store) (hs : GoodMetaStore store)
    (hk : P.kind = .metap) (hp : P.resp = Mc.output store) (hcl : ∀ t, ¬ P.closers t)
    (hc : ∀ c, P.calls c → ∃ op, ((∀ s, GoodMetaOp s op) ∧ ¬ Batch .metap op) ∧ c = Mc.metaCall op)
    {q : State T Store} (h : Later P memcached R (init store) q) (hcas : store.nextCas + q.users.log.length + 1 < 2 ^ 63)
    (hb : AtRest P memcached R q) : AllDone q.users := by
  have hsays : Says memcached store P.resp := hp ▸ says_memcached store
  have hr := C79_refines framed_memcached hsays h
  refine C79_single framed_memcached hR hsays
    (fun c hcc => by obtain ⟨op, _, rfl⟩ := hc c hcc; rw [hk]; exact .metap op) h (Sched.unclosed hcl hr).fine ?_ ?_ ?_ hb
  · intro c hcc
    obtain ⟨ops, hops, hlog⟩ := log_ops hr hc
    obtain ⟨op, hop, rfl⟩ := hc c hcc
    have hlen : ops.length = q.users.log.length := by have := congrArg List.length hlog; simpa using this.symm
    have hh := Props.C52_meta_history ((ops ++ [op]).map fun o => (0, o)) store hs
      (Sched.along_of_all _ _ (by
          intro ev hev; obtain ⟨o, ho, rfl⟩ := List.mem_map.1 hev
          rcases List.mem_append.1 ho with ho | ho
          · exact (hops o ho).1
          · rw [List.mem_singleton.1 ho]; exact hop.1)) (by simp only [List.length_map, List.length_append, hlen, List.length_singleton]; omega)
    have e : q.users.log.map (·.1) ++ [Mc.metaCall op] = (ops ++ [op]).map Mc.metaCall := by simp [hlog]
    rw [e, hp, Mc.oneByOne_session Mc.metaCall store (ops ++ [op]) store _ [] _
      (by intro x; rw [List.nil_append]; rfl) hh]
    exact Sched.runApi_not_io Sched.metaApi_not_io _ _
  · obtain ⟨ops, hops, hlog⟩ := log_ops hr hc
    have hlen : ops.length = q.users.log.length := by have := congrArg List.length hlog; simpa using this.symm
    have hh := Props.C52_meta_history (ops.map fun o => (0, o)) store hs
      (Sched.along_of_all _ _ (by intro ev hev; obtain ⟨o, ho, rfl⟩ := List.mem_map.1 hev; exact (hops o ho).1))
      (by simp only [List.length_map, hlen]; omega)
    rw [hlog, hp, Mc.leftover_session Mc.metaCall store ops store _ [] _ (by intro x; rw [List.nil_append]; rfl) hh]
    simp
  · intro c hcc
    obtain ⟨op, hop, rfl⟩ := hc c hcc
    obtain ⟨w, l, hw, hl⟩ := meta_sends store op (hop.1 store) hop.2
    exact ⟨w, hw, fun s => ⟨_, _, by have := Mc.step_sends hl s []; rwa [List.append_nil] at this⟩⟩

/-- **C79 (binary).** The same for a binary connection (operations whose replies are read to the end, as in C30). -/
theorem C79_binary {P : Sched.Params T} {R : Room} (hR : R.Some) (te : Entry → Bytes) (hte : ∀ e, (te e).length < 256)
    (store : Store) (hs : GoodStore store)
    (hk : P.kind = .binary) (hp : P.resp = McBin.output te store) (hcl : ∀ t, ¬ P.closers t)
    (hc : ∀ c, P.calls c → ∃ u : McBin.BinUse, (u.Ok ∧ ¬ Batch .binary u.op) ∧ c = u.call)
    {q : State T Store} (h : Later P (memcachedBinary te) R (init store) q)
    (hcas : store.nextCas + q.users.log.length + 1 < 2 ^ 63)
    (hb : AtRest P (memcachedBinary te) R q) : AllDone q.users := by
  have hsays : Says (memcachedBinary te) store P.resp := hp ▸ says_binary te store
  have hr := C79_refines (framed_memcachedBinary te) hsays h
  have hc' : ∀ c, P.calls c → ∃ u : McBin.BinUse, u.Ok ∧ c = u.call := fun c hcc => by
    obtain ⟨u, hu, e⟩ := hc c hcc; exact ⟨u, hu.1, e⟩
  obtain ⟨us, hus, hlog⟩ := Sched.uses_of_calls (q.users.log.map (·.1)) (by
    intro d hd
    obtain ⟨e, he, rfl⟩ := List.mem_map.1 hd
    exact hc' e.1 (Sched.log_known hr e he))
  have hlen : us.length = q.users.log.length := by have := congrArg List.length hlog; simpa using this.symm
  refine C79_single (framed_memcachedBinary te) hR hsays
    (fun c hcc => by obtain ⟨u, _, rfl⟩ := hc c hcc; rw [hk]; exact .binary u.h1 u.h2 u.op) h (Sched.unclosed hcl hr).fine ?_ ?_ ?_ hb
  · intro c hcc
    obtain ⟨u, hu, rfl⟩ := hc' c hcc
    have e : q.users.log.map (·.1) ++ [u.call] = (us ++ [u]).map (·.call) := by simp [hlog]
    rw [e, hp, McBin.oneByOne_binary te hte store (us ++ [u]) store [] (by intro x; rw [List.nil_append]; rfl) hs
      (fun v hv => by
        rcases List.mem_append.1 hv with hv | hv
        · exact hus v hv
        · rw [List.mem_singleton.1 hv]; exact hu)
      (by simp only [List.length_append, hlen, List.length_singleton]; omega)]
    exact Sched.runApi_not_io Sched.binApi_not_io _ _
  · rw [hlog, hp, McBin.leftover_binary te hte store us store [] (by intro x; rw [List.nil_append]; rfl) hs hus
      (by rw [hlen]; omega)]
    simp
  · intro c hcc
    obtain ⟨u, hu, rfl⟩ := hc c hcc
    obtain ⟨w, hw, r, hr⟩ := bin_oneReq u.h1 u.h2 u.op hu.1.args hu.1.token hu.2
    refine ⟨w, hw, fun s => ⟨(McBin.exec te s r).1, (McBin.exec te s r).2, ?_⟩⟩
    show (match McBin.readReq w with
      | (.ok (some r), rest) => some ((McBin.exec te s r).1, (McBin.exec te s r).2, rest)
      | _ => none) = _
    rw [hr]

/-- **C79 (a meta `GetMulti` of many keys hangs everybody).** -/
theorem C79_meta_multi {P : Sched.Params T} {R : Room} (hR : R.Some) {store : Store} (hp : P.resp = Mc.output store)
    (hcl : ∀ t, ¬ P.closers t) {q q' : State T Store} (h : Later P memcached R (init store) q) (hq : q.pipe.Quiet) {t : T}
    {ks : List Bytes} (hk : ∀ k ∈ ks, Key k) (hl : R.up + R.down + R.ahead < ks.length)
    (hpc : q.users.pc t = .locked (Mc.metaCall (.getMulti ks))) (hlat : Later P memcached R q q') :
    (q'.users.log = q.users.log ∧ q'.users.lock = some t
      ∧ (AtRest P memcached R q' → Deadlock R q' t (Mc.metaCall (.getMulti ks)))) ∨
    ((∃ more, q'.users.log = q.users.log ++ (Mc.metaCall (.getMulti ks), .err .io) :: more ∧ ∀ e ∈ more, Fails e.1 e.2)
      ∧ (q'.users.ended = true ∨ P.timeout = true ∧ P.late = true)) := by
  have hr := meta_replies q.pipe.srv (ks.take (R.down + 1)) (fun k h => hk k (List.mem_of_mem_take h)) []
  rw [List.append_nil] at hr
  have h3 := length_flatMap_ge (mgReply q.pipe.srv) (mgReply_pos _) (ks.take (R.down + 1))
  have h4 := length_flatMap_ge mgLine mgLine_pos (ks.drop (R.down + 1))
  rw [List.length_take] at h3
  rw [List.length_drop] at h4
  refine C79_too_much framed_memcached hR (hp ▸ says_memcached store) hcl h hq hpc
    (u := (ks.take (R.down + 1)).flatMap mgLine) (v := (ks.drop (R.down + 1)).flatMap mgLine ++ b!"mn\r\n") ?_ hr
    (by omega) (by rw [List.length_append]; omega) hlat
  rw [meta_wire, ← List.append_assoc, ← List.flatMap_append, List.take_append_drop]

/-- **C79 (a binary `GetMulti` of many keys hangs everybody).** -/
theorem C79_binary_multi {P : Sched.Params T} {R : Room} (hR : R.Some) (te : Entry → Bytes) {store : Store}
    (hp : P.resp = McBin.output te store) (hcl : ∀ t, ¬ P.closers t) {q q' : State T Store}
    (h : Later P (memcachedBinary te) R (init store) q) (hq : q.pipe.Quiet) {t : T} {h1 h2 : Bin.ReqHdr}
    {as bs : List Bytes} (hk : ∀ k ∈ as, Key k) (ha : R.down < (as.flatMap (kqReply q.pipe.srv)).length)
    (hb : R.up + R.ahead ≤ 24 * bs.length + 24)
    (hpc : q.users.pc t = .locked (Mc.binCall h1 h2 (.getMulti (as ++ bs)))) (hlat : Later P (memcachedBinary te) R q q') :
    (q'.users.log = q.users.log ∧ q'.users.lock = some t
      ∧ (AtRest P (memcachedBinary te) R q' → Deadlock R q' t (Mc.binCall h1 h2 (.getMulti (as ++ bs))))) ∨
    ((∃ more, q'.users.log = q.users.log ++ (Mc.binCall h1 h2 (.getMulti (as ++ bs)), .err .io) :: more
        ∧ ∀ e ∈ more, Fails e.1 e.2)
      ∧ (q'.users.ended = true ∨ P.timeout = true ∧ P.late = true)) := by
  obtain ⟨h', e⟩ := getKQs_append h1 as bs
  have hr := bin_replies te q.pipe.srv as hk h1 []
  rw [List.append_nil] at hr
  have := kq_length h' bs
  refine C79_too_much (framed_memcachedBinary te) hR (hp ▸ says_binary te store) hcl h hq hpc
    (u := (Bin.getKQs h1 as).1) (v := (Bin.getKQs h' bs).1 ++ (Bin.noopHdr h2).encode)
    (by rw [bin_wire, e]; simp) hr ha ?_ hlat
  rw [List.length_append, encode_raw, rawHdr_length]
  omega

/-! ### Examples -/

/-- Steps without new calls and without the other side hanging up. -/
inductive MovesOn (P : Sched.Params T) (W : Peer σ) (R : Room) (q : State T σ) : State T σ → Prop where
  | refl : MovesOn P W R q q
  | step {q1 q2 : State T σ} : MovesOn P W R q q1 → Moves P W R q1 q2 → MovesOn P W R q q2

theorem MovesOn.later {P : Sched.Params T} {W : Peer σ} {R : Room} {q q' : State T σ} (h : MovesOn P W R q q') :
    Later P W R q q' := by
  induction h with
  | refl => exact .refl
  | step _ hm ih => exact ih.step hm.1

theorem MovesOn.trans {P : Sched.Params T} {W : Peer σ} {R : Room} {q q1 q2 : State T σ} (h1 : MovesOn P W R q q1)
    (h2 : MovesOn P W R q1 q2) : MovesOn P W R q q2 := by
  induction h2 with
  | refl => exact h1
  | step _ hm ih => exact ih.step hm

/-- **C79 (they do come to rest).** From every state the calls under way go on, without new calls and without the other
side hanging up, to a state where nothing more happens. -/
theorem C79_run_on {P : Sched.Params T} {W : Peer σ} (hW : Framed W) {R : Room} {s0 : σ} (hs : Says W s0 P.resp)
    {q : State T σ} (h : Later P W R (init s0) q) : ∃ q', MovesOn P W R q q' ∧ AtRest P W R q' := by
  obtain ⟨ts, hts⟩ := Sched.among (C79_refines hW hs h)
  generalize hm : left ts q = m
  induction m using less6_wf.induction generalizing q with
  | h m ih =>
    by_cases hb : AtRest P W R q
    · exact ⟨q, .refl, hb⟩
    · obtain ⟨q1, h1⟩ : ∃ q1, Moves P W R q q1 := Classical.byContradiction fun hn => hb fun q1 h1 => hn ⟨q1, h1⟩
      obtain ⟨q2, h2, h3⟩ := ih _ (hm ▸ moves_left hW hts h1) (h.step h1.1) (h1.among hts) rfl
      exact ⟨q2, MovesOn.trans (.step .refl h1) h2, h3⟩

theorem MovesOn.ended {P : Sched.Params T} {W : Peer σ} {R : Room} {q q' : State T σ} (h : MovesOn P W R q q') :
    q'.users.ended = q.users.ended := by
  induction h with
  | refl => rfl
  | step _ hm ih => exact hm.2.2.2.trans ih

/-- **C79 (in the end, text).** From every state, if nobody makes new calls and the other side does not hang up, all calls
under way return. -/
theorem C79_text_return {P : Sched.Params T} {R : Room} (hR : R.Some) (name : Bytes) (store : Store) (hs : GoodStore store)
    (hk : P.kind = .text) (hp : P.resp = Mc.output store) (hcl : ∀ t, ¬ P.closers t)
    (hc : ∀ c, P.calls c → ∃ op, GoodOp op ∧ c = Mc.textCall name op)
    {q : State T Store} (h : Later P memcached R (init store) q) :
    ∃ q', MovesOn P memcached R q q' ∧ AtRest P memcached R q'
      ∧ (store.nextCas + q'.users.log.length + 1 < 2 ^ 63 → AllDone q'.users) := by
  obtain ⟨q', h1, h2⟩ := C79_run_on framed_memcached (hp ▸ says_memcached store) h
  exact ⟨q', h1, h2, fun hcas => C79_text hR name store hs hk hp hcl hc (h.trans h1.later) hcas h2⟩

/-- Two goroutines at a meta connection to an empty memcached server, without `Timeout`. -/
def metaUsers : Sched.Params Bool where
  kind := .metap
  timeout := false
  late := false
  resp := Mc.output (Props.emptyStore 0)
  calls c := ∃ op, c = Mc.metaCall op
  closers _ := False

/-- The `GetMulti` of 140000 keys. -/
def manyKeys : List Bytes := List.replicate 140000 b!"a"

/-- With buffers of 64 KiB one goroutine's `GetMulti` of 140000 keys and the server end up waiting for each other, and
another goroutine that just wants to `Get` a key waits for that goroutine, for ever. -/
theorem C79_concrete : ∃ q : State Bool Store, Later metaUsers memcached usual (init (Props.emptyStore 0)) q ∧
    Deadlock usual q false (Mc.metaCall (.getMulti manyKeys)) ∧ q.users.pc true = .called (Mc.metaCall (.get b!"a")) ∧
    ∀ q', Later metaUsers memcached usual q q' → q'.users.ended = true ∨ q'.users.log = [] := by
  have hsays : Says memcached (Props.emptyStore 0) metaUsers.resp := says_memcached _
  have hR : usual.Some := ⟨by decide, by decide, by decide⟩
  have hcl : ∀ t, ¬ metaUsers.closers t := fun _ h => h
  have hno : ¬ (metaUsers.timeout = true ∧ metaUsers.late = true) := by simp [metaUsers]
  obtain ⟨q, l3, hpc, hlog, hen, hquiet, ham⟩ : ∃ q, Later metaUsers memcached usual (init (Props.emptyStore 0)) q ∧
      q.users.pc false = .locked (Mc.metaCall (.getMulti manyKeys)) ∧ q.users.log = [] ∧ q.users.ended = false ∧
      q.pipe.Quiet ∧ Sched.Among [false] q.users := by
    have l1 : Later metaUsers memcached usual (init (Props.emptyStore 0)) _ := .step .refl
      (.other _ _ (.call _ false (Mc.metaCall (.getMulti manyKeys)) rfl ⟨_, rfl⟩) rfl rfl)
    have l2 := l1.step (.other _ _ (.lock _ false (Mc.metaCall (.getMulti manyKeys)) (by simp [Sched.goto_pc]) rfl) rfl rfl)
    refine ⟨_, l2, by simp [Sched.goto_pc], rfl, rfl, ⟨rfl, rfl, rfl, rfl⟩, ?_⟩
    intro t ht
    cases t with
    | false => simp
    | true => exact absurd rfl ht
  obtain ⟨q', hm, hrest⟩ := C79_run_on framed_memcached hsays l3
  have hl := hm.later
  have hidle : q'.users.pc true = .idle := by
    have : Sched.Among [false] q'.users := by
      clear hl hrest
      induction hm with
      | refl => exact ham
      | step _ h1 ih => exact h1.among ih
    apply Classical.byContradiction
    intro hn
    have := this true hn
    simp at this
  have key := C79_meta_multi (P := metaUsers) hR rfl hcl l3 hquiet (ks := manyKeys)
    (fun k hk => by rw [(List.mem_replicate.1 hk).2]; decide) (by unfold manyKeys; rw [List.length_replicate]; decide) hpc hl
  rcases key with ⟨k1, k2, k3⟩ | ⟨_, k | k⟩
  · obtain ⟨⟨x, y, d1⟩, d2⟩ := k3 hrest
    have l4 := (l3.trans hl).step (.other _ _ (.call _ true (Mc.metaCall (.get b!"a")) hidle ⟨_, rfl⟩) rfl rfl)
    have hd : Deadlock usual _ false (Mc.metaCall (.getMulti manyKeys)) :=
      (⟨⟨x, y, by simpa [Sched.goto_pc] using d1⟩, d2⟩ :
        Deadlock usual { q' with users := q'.users.goto true (.called (Mc.metaCall (.get b!"a"))) } false _)
    refine ⟨_, l4, hd, by simp [Sched.goto_pc], fun q2 h2 => ?_⟩
    rcases C79_for_ever framed_memcached hsays hcl hno l4 hd h2 with e | ⟨_, e, _⟩
    · exact .inl e
    · exact .inr (by rw [e]; show q'.users.log = []; rw [k1, hlog])
  · rw [hm.ended, hen] at k; cases k
  · exact absurd k hno

end Narrow
end Verif
