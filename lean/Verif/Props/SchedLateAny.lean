import Verif.Props.SchedLate
import Verif.Lemmas.OnlineBin
import Verif.Spec.Late
/-!
C54 for the meta and binary clients: after a late reply every further Get returns the value of the key asked for before,
under the key asked for now.
-/

namespace Verif
namespace Sched
open Spec

variable {T : Type} [DecidableEq T]

theorem shifted_run {P : Params T} (hon : Online P.resp) (t : T) {sent pending : Bytes} {ds : List (Call Out)}
    {rs : List (Res Out)} (h : Shifted P.resp sent pending ds rs) (hc : ∀ d ∈ ds, P.calls d)
    (hcc : ∀ d ∈ ds, Stable d.rd) (s : State T) (hr : Reach P s) (hq : Quiet s) (hs : s.sent = sent) (x : Bytes)
    (hx : P.resp s.sent = s.got ++ x) (hp : s.inbox ++ x = pending) :
    ∃ s', Reach P s' ∧ s'.log = s.log ++ ds.zip rs ∧ ds.length = rs.length := by
  induction h generalizing s x with
  | nil sent pending => exact ⟨s, hr, by simp, rfl⟩
  | cons sent pending d ds r rs v hv hrd hio rest ih =>
    have hst := hcc d (by simp) pending (replyTo P.resp sent v)
    rw [hrd] at hst
    have hst' := hst hio
    rw [List.nil_append] at hst'
    have hy : P.resp (s.sent ++ v) = s.got ++ (x ++ replyTo P.resp sent v) := by
      obtain ⟨z, hz⟩ := hon.2 sent v
      have : replyTo P.resp sent v = z := by unfold replyTo; rw [← hz, List.drop_left]
      rw [this, hs, ← hz, ← hs, hx, List.append_assoc]
    have e : d.rd (s.inbox ++ (x ++ replyTo P.resp sent v)) = (r, replyTo P.resp sent v) := by
      rw [← List.append_assoc, hp, hst']
    obtain ⟨s1, r1, n1⟩ := reach_answered hr hq t (hc d (by simp)) hv hy (by rw [e]; exact hio)
    rw [e] at n1
    obtain ⟨s2, r2, hl, hlen⟩ := ih (fun d hd => hc d (by simp [hd])) (fun d hd => hcc d (by simp [hd])) s1 r1 n1.quiet
      (by rw [n1.sent, hs]) [] (by rw [n1.sent, hy, n1.got, List.append_nil]) (by rw [n1.inbox, List.append_nil])
    refine ⟨s2, r2, ?_, by simp [hlen]⟩
    rw [hl, n1.log, List.append_assoc]
    rfl

/-- **C54** (a defect), any number of calls: when no part of the reply to the first operation comes in time, every
further operation reads the reply to the operation before it, as long as that reply is one it reads to the end. -/
theorem C54_shifted (P : Params T) (hon : Online P.resp) (h1 : P.timeout = true) (h2 : P.late = true) (t : T)
    (c : Call Out) (ds : List (Call Out)) (rs : List (Res Out)) (w : Bytes) (hw : c.wire = .ok w)
    (hcs : ∀ d ∈ c :: ds, P.calls d ∧ ClientCall P.kind d)
    (hsh : Shifted P.resp w (replyTo P.resp [] w) ds rs) :
    ∃ s, Reach P s ∧ s.log.map (·.1) = c :: ds ∧ s.log.map (·.2) = .err .io :: rs := by
  obtain ⟨s1, r1, n1⟩ := reach_late Reach.init quiet_init t (hcs c (by simp)).1 hw h1 h2 (by
    show (c.rd []).1 = _; rw [(hcs c (by simp)).2.reader.2])
  have hs1 : s1.sent = w := n1.sent
  have hg1 : s1.got = [] := n1.got
  have hi1 : s1.inbox = [] := n1.inbox
  have hl1 : s1.log = [(c, .err .io)] := n1.log
  obtain ⟨s, r, hl, hlen⟩ := shifted_run hon t hsh (fun d hd => (hcs d (by simp [hd])).1)
    (fun d hd => (hcs d (by simp [hd])).2.reader.1) s1 r1 n1.quiet hs1 (P.resp w) (by rw [hs1, hg1]; rfl)
    (by rw [hi1]; simp [replyTo, hon.1])
  refine ⟨s, r, ?_, ?_⟩
  · rw [hl, hl1, List.map_append, List.map_fst_zip (by omega)]; rfl
  · rw [hl, hl1, List.map_append, List.map_snd_zip (by omega)]; rfl

/-- The chain of Gets, over any protocol whose Get reads the reply to any other Get. -/
theorem shifted_gets {α : Type} (resp resp0 : Bytes → Bytes) (view : Bytes → Kv.Entry → Item) (store : Kv.Store)
    (hresp0 : resp0 [] = []) (keyOf : α → Bytes) (call : α → Call Out)
    (hget : ∀ a, Key (keyOf a) → ∃ w rep, (call a).wire = .ok w ∧ (∀ x, resp0 (w ++ x) = rep ++ resp0 x) ∧
      ∀ b, (call b).rd rep = (mislabelled view store (keyOf a) (keyOf b), []))
    (as : List α) (has : ∀ a ∈ as, Key (keyOf a)) (sent pending key : Bytes)
    (hsent : ∀ x, resp (sent ++ x) = resp sent ++ resp0 x)
    (hp : ∀ b, (call b).rd pending = (mislabelled view store key (keyOf b), [])) :
    Shifted resp sent pending (as.map call) (behind view store key (as.map keyOf)) := by
  induction as generalizing sent pending key with
  | nil => exact .nil _ _
  | cons a as ih =>
    obtain ⟨w, rep, hw, ho, hr⟩ := hget a (has a (by simp))
    have ho' : resp0 w = rep := by
      have := ho []
      rwa [List.append_nil, hresp0, List.append_nil] at this
    have hrep : replyTo resp sent w = rep := by
      unfold replyTo
      rw [hsent, List.drop_left, ho']
    refine .cons _ _ _ _ _ _ w hw (hp a) ?_ ?_
    · unfold mislabelled; split <;> simp
    · rw [hrep]
      exact ih (fun k hk => has k (by simp [hk])) (sent ++ w) rep (keyOf a)
        (by intro x; rw [List.append_assoc, hsent, ho, hsent, ho', List.append_assoc]) hr

/-- The whole run. -/
theorem mislabelled_run {α : Type} (P : Params T) (h1 : P.timeout = true) (h2 : P.late = true) (hon : Online P.resp)
    (view : Bytes → Kv.Entry → Item) (store : Kv.Store) (keyOf : α → Bytes) (call : α → Call Out)
    (hget : ∀ a, Key (keyOf a) → ∃ w rep, (call a).wire = .ok w ∧ (∀ x, P.resp (w ++ x) = rep ++ P.resp x) ∧
      ∀ b, (call b).rd rep = (mislabelled view store (keyOf a) (keyOf b), []))
    (t : T) (a : α) (as : List α) (has : ∀ b ∈ a :: as, Key (keyOf b))
    (hc : ∀ b ∈ a :: as, P.calls (call b)) (hcc : ∀ b, ClientCall P.kind (call b)) :
    ∃ s, Reach P s ∧ s.log.map (·.1) = (a :: as).map call ∧
      s.log.map (·.2) = .err .io :: behind view store (keyOf a) (as.map keyOf) := by
  obtain ⟨w, rep, hw, ho, hr⟩ := hget a (has a (by simp))
  have ho' : P.resp w = rep := by
    have := ho []
    rwa [List.append_nil, hon.1, List.append_nil] at this
  refine C54_shifted P hon h1 h2 t (call a) (as.map call) _ w hw ?_ ?_
  · intro d hd
    rw [← List.map_cons (f := call)] at hd
    obtain ⟨k, hk', rfl⟩ := List.mem_map.1 hd
    exact ⟨hc k hk', hcc k⟩
  · refine shifted_gets P.resp P.resp view store hon.1 keyOf call hget as (fun b hb => has b (by simp [hb])) w _ (keyOf a) ?_ ?_
    · intro x; rw [ho, ho']
    · intro k'
      have : replyTo P.resp [] w = rep := by simp [replyTo, ho', hon.1]
      rw [this]; exact hr k'

open Kv in
theorem meta_get_pieces (store : Store) (hs : GoodMetaStore store) (k : Bytes) (hk : Key k) :
    ∃ w rep, (Mc.metaCall (.get k)).wire = .ok w ∧ (∀ x, Mc.output store (w ++ x) = rep ++ Mc.output store x) ∧
      ∀ k', (Mc.metaCall (.get k')).rd rep = (mislabelled (metaItem store.now) store k k', []) := by
  have ha := Mc.answer_sends (s := store) (Props.sends_mg k hk)
  have hst : (Mc.execLine store (some (.mg k [b!"v", b!"f", b!"c", b!"t"]))).2 = store := by
    simp only [Mc.execLine, Mc.exec]
  have ha' : Mc.answer store (b!"mg " ++ k ++ b!" v f c t\r\n")
      = some ((Mc.execLine store (some (.mg k [b!"v", b!"f", b!"c", b!"t"]))).1, store) := by
    rw [ha]; exact congrArg some (Prod.ext rfl hst)
  refine ⟨_, _, rfl, fun x => Mc.output_answer ha' x, ?_⟩
  intro k'
  unfold mislabelled
  cases hf : store.find k with
  | none =>
    have : (Mc.execLine store (some (.mg k [b!"v", b!"f", b!"c", b!"t"]))).1 = b!"EN\r\n" := by
      simp [Mc.execLine, Mc.exec, hf]
    rw [this]; rfl
  | some e =>
    have hit := Props.meta_get_hit hs k hk e hf []
    rw [List.append_nil] at hit
    have h2 : (Meta.get k').rd (Mc.execLine store (some (.mg k [b!"v", b!"f", b!"c", b!"t"]))).1
        = (.ok (metaItem store.now k' e), []) := by
      show (Meta.parseGetResponse >>= _) _ = _
      rw [Mc.execLine, Rd.bind_of_ok hit]; rfl
    exact Mc.map_rd Out.item (Meta.get k') _ _ _ h2

open Kv in
/-- **C54** (a defect), at a memcached server behind the meta client: after a late reply each further Get returns the value
of the key asked for before it, as the item of the key asked for. -/
theorem C54_meta_mislabelled (P : Params T) (store : Store) (hs : GoodMetaStore store)
    (hk : P.kind = .metap) (hp : P.resp = Mc.output store) (h1 : P.timeout = true) (h2 : P.late = true)
    (hc : ∀ k, Key k → P.calls (Mc.metaCall (.get k))) (t : T) (key : Bytes) (keys : List Bytes)
    (hkey : Key key) (hkeys : ∀ k ∈ keys, Key k) :
    ∃ s, Reach P s ∧ s.log.map (·.1) = (key :: keys).map (fun k => Mc.metaCall (.get k)) ∧
      s.log.map (·.2) = .err .io :: behind (metaItem store.now) store key keys := by
  have hall : ∀ k ∈ key :: keys, Key k := by
    intro k hk'
    rcases List.mem_cons.1 hk' with rfl | hk'
    · exact hkey
    · exact hkeys k hk'
  have := mislabelled_run P h1 h2 (hp ▸ Mc.output_online store) (metaItem store.now) store id (fun k => Mc.metaCall (.get k))
    (by rw [hp]; exact meta_get_pieces store hs) t key keys
    hall (fun k hk' => hc k (hall k hk'))
    (fun k => hk ▸ .metap _)
  rwa [List.map_id] at this

open Kv in
theorem bin_get_pieces (te : Entry → Bytes) (store : Store) (hs : GoodStore store) (h1 h2 : Bin.ReqHdr) (k : Bytes) (hk : Key k) :
    ∃ w rep, (Mc.binCall h1 h2 (.get k)).wire = .ok w ∧
      (∀ x, McBin.output te store (w ++ x) = rep ++ McBin.output te store x) ∧
      ∀ h1' h2' k', (Mc.binCall h1' h2' (.get k')).rd rep
        = (mislabelled (fun k e => binItem k e e.cas) store k k', []) := by
  have ha := McBin.answer_one te store 0 0 [] k [] 0 (by simp) (Props.key16 hk)
    (by have := hk.2; simp only [List.length_nil]; omega) (by decide)
  have hx : McBin.exec te store (McBin.mk 0 [] k [] 0) = (match store.find k with
      | some e => (McBin.reply (McBin.mk 0 [] k [] 0) 0 (putBE 4 e.flags) [] e.value e.cas, store)
      | none => (McBin.notFound (McBin.mk 0 [] k [] 0), store)) := by
    unfold McBin.exec
    rw [if_pos (show (McBin.mk 0 [] k [] 0).opcode = 0 ∨ (McBin.mk 0 [] k [] 0).opcode = 13 from Or.inl rfl)]
    have : (McBin.mk 0 [] k [] 0).key = k := rfl
    rw [this]
    cases store.find k <;> rfl
  unfold mislabelled
  cases hf : store.find k with
  | none =>
    simp only [hf] at hx
    rw [hx] at ha
    exact ⟨_, _, Props.wire_get h1 hk, fun x => McBin.output_answer ha x, fun h1' h2' k' =>
      Mc.map_rd Out.item (Bin.get h1' k') _ _ _ (Props.get_miss h1' k' [] k [] 0)⟩
  | some e =>
    simp only [hf] at hx
    rw [hx] at ha
    obtain ⟨g1, g2, g3, g4⟩ := hs.entry k e (Mc.find_data hf)
    have hlt : e.cas < 2 ^ 64 := by have := hs.cas; omega
    refine ⟨_, _, Props.wire_get h1 hk, fun x => McBin.output_answer ha x, fun h1' h2' k' => ?_⟩
    exact Mc.map_rd Out.item (Bin.get h1' k') _ _ _ (Props.get_hit h1' k' [] k [] 0 (putBE 4 e.flags) e.value e.cas
      (putBE_length 4 _) (Mc.maxValue31 g3) hlt)

open Kv in
/-- **C54** (a defect), at a memcached server behind the binary client, with any recycled request headers: after a late
reply each further Get returns the value of the key asked for before it, as the item of the key asked for. -/
theorem C54_binary_mislabelled (P : Params T) (te : Entry → Bytes) (store : Store) (hs : GoodStore store)
    (hk : P.kind = .binary) (hp : P.resp = McBin.output te store) (h1 : P.timeout = true) (h2 : P.late = true)
    (hc : ∀ g1 g2 k, Key k → P.calls (Mc.binCall g1 g2 (.get k))) (t : T) (get : Bin.ReqHdr × Bin.ReqHdr × Bytes)
    (gets : List (Bin.ReqHdr × Bin.ReqHdr × Bytes)) (hkeys : ∀ g ∈ get :: gets, Key g.2.2) :
    ∃ s, Reach P s ∧ s.log.map (·.1) = (get :: gets).map (fun g => Mc.binCall g.1 g.2.1 (.get g.2.2)) ∧
      s.log.map (·.2) = .err .io :: behind (fun k e => binItem k e e.cas) store get.2.2 (gets.map (·.2.2)) := by
  have hon : Online P.resp := by rw [hp]; exact McBin.output_online te store
  have hcc : ∀ g : Bin.ReqHdr × Bin.ReqHdr × Bytes, ClientCall P.kind (Mc.binCall g.1 g.2.1 (.get g.2.2)) := by
    intro g; rw [hk]; exact .binary _ _ _
  have hget : ∀ a : Bin.ReqHdr × Bin.ReqHdr × Bytes, Key a.2.2 → ∃ w rep, (Mc.binCall a.1 a.2.1 (.get a.2.2)).wire = .ok w ∧
      (∀ x, P.resp (w ++ x) = rep ++ P.resp x) ∧ ∀ b : Bin.ReqHdr × Bin.ReqHdr × Bytes,
        (Mc.binCall b.1 b.2.1 (.get b.2.2)).rd rep = (mislabelled (fun k e => binItem k e e.cas) store a.2.2 b.2.2, []) := by
    rw [hp]
    intro g hg
    obtain ⟨w, rep, hw, ho, hr⟩ := bin_get_pieces te store hs g.1 g.2.1 g.2.2 hg
    exact ⟨w, rep, hw, ho, fun b => hr b.1 b.2.1 b.2.2⟩
  have hcl : ∀ b ∈ get :: gets, P.calls (Mc.binCall b.1 b.2.1 (.get b.2.2)) := fun g hg => hc g.1 g.2.1 g.2.2 (hkeys g hg)
  clear hc hk hp hs
  generalize hcall : (fun g : Bin.ReqHdr × Bin.ReqHdr × Bytes => Mc.binCall g.1 g.2.1 (.get g.2.2)) = call
  have hcall' : ∀ g, Mc.binCall g.1 g.2.1 (.get g.2.2) = call g := fun g => by rw [← hcall]
  simp only [hcall'] at hget hcc hcl
  exact mislabelled_run P h1 h2 hon (fun k e => binItem k e e.cas) store (fun g => g.2.2) call hget t get gets hkeys hcl hcc

/-! ## Runs that meet the hypotheses -/

/-- A memcached with two keys. -/
def twoKeys : Kv.Store := ((Props.emptyStore 0).store .set b!"a" b!"1" 0 0).2.store .set b!"b" b!"2" 0 0 |>.2

theorem twoKeys_good : GoodStore twoKeys := by
  have h1 := Props.Next.store (s := Props.emptyStore 0) (Props.emptyStore_good 0) (by decide) .set b!"a" b!"1" 0 0
    (by decide) (by decide) (by decide)
  exact (Props.Next.store h1.1 (by decide) .set b!"b" b!"2" 0 0 (by decide) (by decide) (by decide)).1

/-- The value of `a` as the item of `b`, then the value of `b` as the item of `a`. -/
theorem C54_mislabelled_concrete (P : Params T) (te : Kv.Entry → Bytes) (hk : P.kind = .binary)
    (hp : P.resp = McBin.output te twoKeys) (h1 : P.timeout = true) (h2 : P.late = true)
    (hc : ∀ g1 g2 k, Key k → P.calls (Mc.binCall g1 g2 (.get k))) (t : T) (h : Bin.ReqHdr) :
    ∃ s, Reach P s ∧ s.log.map (·.1) = [Mc.binCall h h (.get b!"a"), Mc.binCall h h (.get b!"b"), Mc.binCall h h (.get b!"a")] ∧
      s.log.map (·.2) = [.err .io, .ok (.item { key := b!"b", value := b!"1", flags := some [0, 0, 0, 0], cas := 1 }),
        .ok (.item { key := b!"a", value := b!"2", flags := some [0, 0, 0, 0], cas := 2 })] := by
  have := C54_binary_mislabelled P te twoKeys twoKeys_good hk hp h1 h2 hc t (h, h, b!"a") [(h, h, b!"b"), (h, h, b!"a")]
    (by
      have ha : Key b!"a" := by decide
      have hb : Key b!"b" := by decide
      intro g hg
      simp only [List.mem_cons, List.not_mem_nil, or_false] at hg
      rcases hg with rfl | rfl | rfl <;> assumption)
  obtain ⟨s, r, l1, l2⟩ := this
  refine ⟨s, r, l1, ?_⟩
  rw [l2]
  show .err .io :: behind (fun k e => binItem k e e.cas) twoKeys b!"a" [b!"b", b!"a"] = _
  decide +kernel

/-- Parameters that meet the hypotheses. -/
example : ∃ P : Params Bool, P.kind = .binary ∧ P.resp = McBin.output (fun _ => []) twoKeys ∧ P.timeout = true ∧ P.late = true ∧
    ∀ g1 g2 k, Key k → P.calls (Mc.binCall g1 g2 (.get k)) :=
  ⟨{ kind := .binary, timeout := true, late := true, resp := McBin.output (fun _ => []) twoKeys,
     calls := fun c => ∃ g1 g2 op, c = Mc.binCall g1 g2 op, closers := fun _ => False },
   rfl, rfl, rfl, rfl, fun g1 g2 k _ => ⟨g1, g2, .get k, rfl⟩⟩

end Sched
end Verif
