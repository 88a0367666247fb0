import Verif.Lemmas.OnlineBin
import Verif.Props.ProgressUse
import Verif.Props.ReconnUse
import Verif.Props.SchedLate
/-!
C30, C68 and C69 with a memcached server at the other end of a binary connection, and C69 for meta.
-/

namespace Verif
namespace Sched
open Spec McBin

variable {T : Type} [DecidableEq T]

theorem uses_of_calls : ∀ cs : List (Call Out), (∀ c ∈ cs, ∃ u : BinUse, u.Ok ∧ c = u.call) →
    ∃ us : List BinUse, (∀ u ∈ us, u.Ok) ∧ cs = us.map (·.call) := by
  intro cs
  induction cs with
  | nil => intro _; exact ⟨[], by simp, rfl⟩
  | cons c cs ih =>
    intro h
    obtain ⟨u, hu, rfl⟩ := h c (by simp)
    obtain ⟨us, hus, rfl⟩ := ih fun d hd => h d (by simp [hd])
    refine ⟨u :: us, ?_, rfl⟩
    intro x hx
    rcases List.mem_cons.1 hx with rfl | hx
    · exact hu
    · exact hus x hx

theorem binApi_not_io (s : Kv.Store) (op : Op) : (binApi s op).1 ≠ .err .io := by
  cases op <;> simp only [binApi, binCount] <;> repeat' split
  all_goals simp

open Kv in
/-- **C30**, with a memcached server at the other end of a binary connection: whatever goroutines do, with whatever
recycled request headers (those of counting calls without a token), their results are those of the abstract store,
operated on one operation at a time in the order in which the operations return.  The operations are those whose
replies the client reads to the end (for the others see C55). -/
theorem C30_memcached_binary (P : Params T) (te : Entry → Bytes) (hte : ∀ e, (te e).length < 256) (store : Store)
    (hs : GoodStore store) (hk : P.kind = .binary) (hp : P.resp = McBin.output te store)
    (hc : ∀ c, P.calls c → ∃ u : BinUse, u.Ok ∧ c = u.call)
    (s : State T) (h : Reach P s) (ho : s.isOpen = true) (he : s.ended = false)
    (ht : ¬ (P.timeout = true ∧ P.late = true)) (hcas : store.nextCas + s.log.length < 2 ^ 63) :
    ∃ us : List BinUse, s.log.map (·.1) = us.map (·.call) ∧
      s.log.map (·.2) = (runApi binApi store (us.map fun u => (0, u.op))).1 := by
  have hseq := C30_sequential P (hp ▸ McBin.output_online te store)
    (fun c hcc => by obtain ⟨u, _, rfl⟩ := hc c hcc; rw [hk]; exact .binary u.h1 u.h2 u.op) s h ho he ht
  obtain ⟨us, hus, hlog⟩ := uses_of_calls (s.log.map (·.1)) (by
    intro c hcc
    obtain ⟨e, he, rfl⟩ := List.mem_map.1 hcc
    exact hc e.1 (log_known h e he))
  have hlen : us.length = s.log.length := by
    have := congrArg List.length hlog
    simpa using this.symm
  refine ⟨us, hlog, ?_⟩
  rw [hseq, hlog, hp]
  exact McBin.oneByOne_binary te hte store us store [] (by intro x; rw [List.nil_append]; rfl) hs hus (by rw [hlen]; exact hcas)

open Kv in
/-- **C68**, a binary connection to a memcached server (operations as in C30): with no deadline and nobody closing the
connection, the calls under way cannot stop before all of them have returned. -/
theorem C68_memcached_binary (P : Params T) (te : Entry → Bytes) (hte : ∀ e, (te e).length < 256) (store : Store)
    (hs : GoodStore store) (hk : P.kind = .binary) (hp : P.resp = McBin.output te store) (hcl : ∀ t, ¬ P.closers t)
    (hc : ∀ c, P.calls c → ∃ u : BinUse, u.Ok ∧ c = u.call)
    (s : State T) (h : Reach P s) (hcas : store.nextCas + s.log.length + 1 < 2 ^ 63) (hb : Blocked P s) : AllDone s := by
  refine C68_served P (hp ▸ McBin.output_online te store)
    (fun c hcc => by obtain ⟨u, _, rfl⟩ := hc c hcc; rw [hk]; exact .binary u.h1 u.h2 u.op) s h (unclosed hcl h).fine ?_ hb
  intro c hcc
  obtain ⟨us, hus, hlog⟩ := uses_of_calls (s.log.map (·.1) ++ [c]) (by
    intro d hd
    rcases List.mem_append.1 hd with hd | hd
    · obtain ⟨e, he, rfl⟩ := List.mem_map.1 hd
      exact hc e.1 (log_known h e he)
    · rw [List.mem_singleton.1 hd]; exact hc c hcc)
  have hlen : us.length = s.log.length + 1 := by
    have := congrArg List.length hlog
    simpa using this.symm
  rw [hlog, hp, McBin.oneByOne_binary te hte store us store [] (by intro x; rw [List.nil_append]; rfl) hs hus
    (by rw [hlen]; omega)]
  exact runApi_not_io binApi_not_io _ _

/-! ## A run that meets the hypotheses -/

/-- Two goroutines at a binary connection to an empty memcached server. -/
def binUsers : Params Bool where
  kind := .binary
  timeout := true
  late := false
  resp := McBin.output (fun e => putBE 4 e.flags) (Props.emptyStore 0)
  calls c := ∃ u : BinUse, u.Ok ∧ c = u.call
  closers _ := False

/-- One stores and the other one reads, with recycled headers. -/
theorem C30_binary_concrete (h : Bin.ReqHdr) : ∃ s, Reach binUsers s ∧ s.isOpen = true ∧ s.ended = false ∧
    s.log.map (·.1) = [Mc.binCall h h (.set { key := b!"a", value := b!"7" }), Mc.binCall h h (.get b!"a")] ∧
    s.log.map (·.2) = [.ok .done, .ok (.item { key := b!"a", value := b!"7", flags := some [0, 0, 0, 0], cas := 1 })] := by
  have hc1 : binUsers.calls (Mc.binCall h h (.set { key := b!"a", value := b!"7" })) :=
    ⟨⟨h, h, .set { key := b!"a", value := b!"7" }⟩,
      ⟨(⟨⟨by decide, by decide, by decide, by decide⟩, by simp, by decide⟩ : GoodBinItem _), rfl, fun hh => hh.elim⟩, rfl⟩
  have hc2 : binUsers.calls (Mc.binCall h h (.get b!"a")) :=
    ⟨⟨h, h, .get b!"a"⟩, ⟨(by decide : Key b!"a"), trivial, fun hh => hh.elim⟩, rfl⟩
  have e1 : (Mc.binCall h h (.set { key := b!"a", value := b!"7" })).rd
      = (Mc.binCall {} {} (.set { key := b!"a", value := b!"7" })).rd := rfl
  have e2 : (Mc.binCall h h (.get b!"a")).rd = (Mc.binCall {} {} (.get b!"a")).rd := rfl
  obtain ⟨s1, r1, n1⟩ := reach_answered (P := binUsers) Reach.init quiet_init true hc1
    (w := reqBytes 1 0 (putBE 8 0) b!"a" b!"7" 0) (y := reply (mk 1 [] [] [] 0) 0 [] [] [] 1) (by rfl) (by decide +kernel)
    (by rw [e1]; decide +kernel)
  have hg : s1.got = reply (mk 1 [] [] [] 0) 0 [] [] [] 1 := n1.got
  have hi : s1.inbox = [] := by rw [n1.inbox, e1]; decide +kernel
  have hs : s1.sent = reqBytes 1 0 (putBE 8 0) b!"a" b!"7" 0 := n1.sent
  obtain ⟨s2, r2, n2⟩ := reach_answered r1 n1.quiet false hc2
    (w := reqBytes 0 0 [] b!"a" [] 0) (y := reply (mk 0 [] [] [] 0) 0 (putBE 4 0) [] b!"7" 1) (by rfl)
    (by rw [hg, hs]; decide +kernel) (by rw [hi, e2]; decide +kernel)
  refine ⟨s2, r2, n2.quiet.isOpen, n2.quiet.ended, ?_, ?_⟩
  · rw [n2.log, n1.log]; rfl
  · rw [n2.log, n1.log, hi, e1, e2]
    have d1 : ((Mc.binCall {} {} (.set { key := b!"a", value := b!"7" })).rd
        ([] ++ reply (mk 1 [] [] [] 0) 0 [] [] [] 1)).1 = .ok .done := by decide +kernel
    have d2 : ((Mc.binCall {} {} (.get b!"a")).rd ([] ++ reply (mk 0 [] [] [] 0) 0 (putBE 4 0) [] b!"7" 1)).1
        = .ok (.item { key := b!"a", value := b!"7", flags := some [0, 0, 0, 0], cas := 1 }) := by decide +kernel
    rw [d2]
    show [((Mc.binCall {} {} (.set { key := b!"a", value := b!"7" })).rd
        ([] ++ reply (mk 1 [] [] [] 0) 0 [] [] [] 1)).1, _] = _
    rw [d1]

end Sched

namespace Reconn
open Spec McBin

variable {T : Type} [DecidableEq T]

open Kv in
/-- **C69**, with a memcached server behind the meta client (operations as in C52). -/
theorem C69_memcached_meta (P : Params T) (store : Nat → Store) (hs : ∀ n, GoodMetaStore (store n))
    (hk : P.kind = .metap) (hp : ∀ n, P.resp n = Mc.output (store n))
    (hc : ∀ c, P.calls c → ∃ op, (∀ s, GoodMetaOp s op) ∧ c = Mc.metaCall op)
    (s : State T) (h : Reach P s) (n : Nat) (ho : (s.conns n).isOpen = true) (he : (s.conns n).ended = false)
    (ht : ¬ (P.timeout = true ∧ P.late = true)) (hcas : (store n).nextCas + (epoch n s.log).length < 2 ^ 63) :
    ∃ ops : List Op, (epoch n s.log).map (·.1) = ops.map Mc.metaCall ∧
      (epoch n s.log).map (·.2) = (runApi metaApi (store n) (ops.map fun o => (0, o))).1 := by
  have hseq := C69_sequential P (fun g => (hp g) ▸ Mc.output_online (store g))
    (fun c hcc => by obtain ⟨op, _, rfl⟩ := hc c hcc; rw [hk]; exact .metap op) s h n ho he ht
  obtain ⟨ops, hops, hlog⟩ := Sched.ops_of_calls (Q := fun op => ∀ s, GoodMetaOp s op) (call := Mc.metaCall)
    ((epoch n s.log).map (·.1)) (by
    intro c hcc
    obtain ⟨e, hee, rfl⟩ := List.mem_map.1 hcc
    exact hc e.1 (log_known h e.1 e.2 (epoch_mem _ _ _ _ hee)))
  have hlen : ops.length = (epoch n s.log).length := by
    have := congrArg List.length hlog
    simpa using this.symm
  refine ⟨ops, hlog, ?_⟩
  have hh := Props.C52_meta_history (ops.map fun o => (0, o)) (store n) (hs n)
    (Sched.along_of_all _ _ (by intro ev hev; obtain ⟨o, ho, rfl⟩ := List.mem_map.1 hev; exact hops o ho))
    (by simpa [hlen] using hcas)
  rw [hseq, hlog, hp]
  exact Mc.oneByOne_session Mc.metaCall (store n) ops (store n) _ [] _
    (by intro x; rw [List.nil_append]; rfl) hh

open Kv in
/-- **C69**, with a memcached server behind the binary client (operations as in C30). -/
theorem C69_memcached_binary (P : Params T) (te : Entry → Bytes) (hte : ∀ e, (te e).length < 256) (store : Nat → Store)
    (hs : ∀ n, GoodStore (store n)) (hk : P.kind = .binary) (hp : ∀ n, P.resp n = McBin.output te (store n))
    (hc : ∀ c, P.calls c → ∃ u : BinUse, u.Ok ∧ c = u.call)
    (s : State T) (h : Reach P s) (n : Nat) (ho : (s.conns n).isOpen = true) (he : (s.conns n).ended = false)
    (ht : ¬ (P.timeout = true ∧ P.late = true)) (hcas : (store n).nextCas + (epoch n s.log).length < 2 ^ 63) :
    ∃ us : List BinUse, (epoch n s.log).map (·.1) = us.map (·.call) ∧
      (epoch n s.log).map (·.2) = (runApi binApi (store n) (us.map fun u => (0, u.op))).1 := by
  have hseq := C69_sequential P (fun g => (hp g) ▸ McBin.output_online te (store g))
    (fun c hcc => by obtain ⟨u, _, rfl⟩ := hc c hcc; rw [hk]; exact .binary u.h1 u.h2 u.op) s h n ho he ht
  obtain ⟨us, hus, hlog⟩ := Sched.uses_of_calls ((epoch n s.log).map (·.1)) (by
    intro c hcc
    obtain ⟨e, hee, rfl⟩ := List.mem_map.1 hcc
    exact hc e.1 (log_known h e.1 e.2 (epoch_mem _ _ _ _ hee)))
  have hlen : us.length = (epoch n s.log).length := by
    have := congrArg List.length hlog
    simpa using this.symm
  refine ⟨us, hlog, ?_⟩
  rw [hseq, hlog, hp]
  exact McBin.oneByOne_binary te hte (store n) us (store n) [] (by intro x; rw [List.nil_append]; rfl) (hs n) hus
    (by rw [hlen]; exact hcas)

end Reconn
end Verif
