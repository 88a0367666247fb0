import Verif.Props.Flow
import Verif.Props.MetaHistory
import Verif.Props.BinHistory
import Verif.Props.Converse
/-!
C77 for the operations of the clients.
-/

namespace Verif
namespace Flow
open Kv Srv Spec

variable {σ : Type}

/-! ### memcached, text and meta -/

theorem memcached_idle (s : Store) : memcached.next s [] = none := rfl

theorem one_sends {c : Call Out} {w : Bytes} {l : Option Mc.Cmd} {s s' : Store} {res : Res Out} (hw : c.wire = .ok w)
    (hs : Mc.Sends w l) (hx : Mc.exchange c s = some (res, s')) :
    ∃ o, memcached.next s w = some (o, s', []) ∧ c.rd o = (res, []) := by
  have h1 := Mc.step_sends hs s []
  rw [List.append_nil] at h1
  unfold Mc.exchange at hx
  rw [hw] at hx
  simp only [Mc.answer_sends hs s] at hx
  cases hr : c.rd (Mc.execLine s l).1 with
  | mk x r =>
    rw [hr] at hx
    cases r with
    | cons a b => simp at hx
    | nil =>
      simp only at hx
      split at hx
      · cases hx
      · simp only [Option.some.injEq, Prod.mk.injEq] at hx
        refine ⟨(Mc.execLine s l).1, ?_, ?_⟩
        · rw [← hx.2]; exact h1
        · rw [hr, hx.1]

theorem arith_sends (op : Bytes) (up : Bool) (key : Bytes) (delta : Int) (hop : Plain op)
    (hp : ∀ k d, Mc.parseLine [op, k, d] = (parseUint d 64).map fun d => .done (.arith up k d)) (hk : Key key) :
    ∃ l, Mc.Sends (op ++ 32 :: key ++ 32 :: intDec delta ++ crlf) l := by
  have hplain : ∀ w ∈ [op, key, intDec delta], Plain w := by
    intro w hw
    simp only [List.mem_cons, List.not_mem_nil, or_false] at hw
    rcases hw with rfl | rfl | rfl
    · exact hop
    · exact Mc.keyPlain hk
    · exact intDec_plain _
  have e : op ++ 32 :: key ++ 32 :: intDec delta ++ crlf = joinSp [op, key, intDec delta] ++ crlf := by simp [joinSp]
  rw [e]
  cases hd : parseUint (intDec delta) 64 with
  | none => exact ⟨none, Mc.sends_line _ none (by simp) hplain (by rw [hp, hd]; rfl)⟩
  | some d => exact ⟨_, Mc.sends_line _ (some (.arith up key d)) (by simp) hplain (by rw [hp, hd]; rfl)⟩

theorem text_sends (name : Bytes) (op : Op) (ho : GoodOp op) :
    ∃ w l, (Mc.textCall name op).wire = .ok w ∧ Mc.Sends w l := by
  cases op with
  | get k =>
    have hk : Key k := ho
    refine ⟨_, some (.gets [k]), rfl, ?_⟩
    have := Mc.sends_line [b!"gets", k] (some (.gets [k])) (by simp)
      (by intro w hw; simp at hw; rcases hw with rfl | rfl; decide; exact Mc.keyPlain hk) rfl
    simpa [joinSp] using this
  | getMulti ks =>
    obtain ⟨hne, hks⟩ := ho
    refine ⟨_, some (.gets ks), rfl, ?_⟩
    have := Mc.sends_line (b!"gets" :: ks) (some (.gets ks)) (by simp)
      (by intro w hw; simp at hw; rcases hw with rfl | hw; decide; exact Mc.keyPlain (hks w hw))
      (by simp [Mc.parseLine, hne])
    cases ks with
    | nil => exact absurd rfl hne
    | cons k ks => simpa [joinSp] using this
  | set i => exact ⟨_, _, rfl, Mc.sends_set i (Mc.plainItem ho)⟩
  | add i => exact ⟨_, _, rfl, Mc.sends_store b!"add" .add i (Mc.plainItem ho) (by decide) (fun _ _ _ _ => rfl)⟩
  | replace i => exact ⟨_, _, rfl, Mc.sends_store b!"replace" .replace i (Mc.plainItem ho) (by decide) (fun _ _ _ _ => rfl)⟩
  | delete k =>
    have hk : Key k := ho
    refine ⟨_, some (.delete k), rfl, ?_⟩
    have := Mc.sends_line [b!"delete", k] (some (.delete k)) (by simp)
      (by intro w hw; simp at hw; rcases hw with rfl | rfl; decide; exact Mc.keyPlain hk) rfl
    simpa [joinSp] using this
  | increment k d e =>
    obtain ⟨l, hl⟩ := arith_sends b!"incr" true k d (by decide) (fun _ _ => rfl) ho.1
    exact ⟨_, l, rfl, hl⟩
  | decrement k d e =>
    obtain ⟨l, hl⟩ := arith_sends b!"decr" false k d (by decide) (fun _ _ => rfl) ho.1
    exact ⟨_, l, rfl, hl⟩
  | touch k e =>
    obtain ⟨hk, he⟩ : Key k ∧ InRange 32 e := ho
    refine ⟨_, some (.touch k e), rfl, ?_⟩
    have := Mc.sends_line [b!"touch", k, intDec e] (some (.touch k e)) (by simp)
      (by intro w hw; simp at hw; rcases hw with rfl | rfl | rfl; decide; exact Mc.keyPlain hk; exact intDec_plain _)
      (by show (parseInt (intDec e) 32).map _ = _
          rw [parseInt_intDec e 32 he (by omega)]; rfl)
    simpa [joinSp] using this
  | flush => exact ⟨_, some .flush, rfl, Mc.sends_line [b!"flush_all"] (some .flush) (by simp) (by decide) rfl⟩

theorem meta_sends (s : Store) (op : Op) (ho : GoodMetaOp s op) (hb : ¬ Batch .metap op) :
    ∃ w l, (Mc.metaCall op).wire = .ok w ∧ Mc.Sends w l := by
  cases op with
  | get k => exact ⟨_, _, rfl, Props.sends_mg k ho⟩
  | getMulti ks => exact absurd trivial hb
  | set i =>
    have hi : GoodMetaItem i := ho
    obtain ⟨w, h1, h2⟩ := Props.sends_ms i (Mc.plainItem hi.good) (fun f hf => by have := (hi.flags f hf).1; omega)
    exact ⟨w, _, h1, h2⟩
  | add i =>
    have hi : GoodMetaItem i := ho
    exact ⟨_, _, rfl, Mc.sends_store b!"add" .add i (Mc.plainItem hi.good) (by decide) (fun _ _ _ _ => rfl)⟩
  | replace i =>
    have hi : GoodMetaItem i := ho
    exact ⟨_, _, rfl, Mc.sends_store b!"replace" .replace i (Mc.plainItem hi.good) (by decide) (fun _ _ _ _ => rfl)⟩
  | delete k =>
    have hk : Key k := ho
    refine ⟨_, some (.md k), rfl, ?_⟩
    have := Mc.sends_line [b!"md", k] (some (.md k)) (by simp)
      (by intro w hw; simp at hw; rcases hw with rfl | rfl; decide; exact Mc.keyPlain hk) rfl
    simpa [joinSp] using this
  | increment k d e =>
    obtain ⟨l, hl⟩ := arith_sends b!"incr" true k d (by decide) (fun _ _ => rfl) ho.1
    exact ⟨_, l, rfl, hl⟩
  | decrement k d e =>
    obtain ⟨l, hl⟩ := arith_sends b!"decr" false k d (by decide) (fun _ _ => rfl) ho.1
    exact ⟨_, l, rfl, hl⟩
  | touch k e => exact ho.elim
  | flush => exact ⟨_, some .flush, rfl, Mc.sends_line [b!"flush_all"] (some .flush) (by simp) (by decide) rfl⟩

/-- **C77 (text).** Every operation of a text client, `GetMulti` too, comes through on a connection that holds but one
byte in each direction: every run ends, and it can end only with the operation having the reply to the whole request,
from which it returns what memcached's contents say. -/
theorem C77_text {R : Room} (hR : R.Some) (name : Bytes) (op : Op) (ho : GoodOp op) (s : Store) (hs : GoodStore s) :
    ∃ w, (Mc.textCall name op).wire = .ok w ∧ ∀ n, Reach memcached R (start s w) n →
      (Stuck memcached R n ↔ Through memcached s w n)
      ∧ (Stuck memcached R n → (Mc.textCall name op).rd n.heard = ((textApi name s op).1, [])
          ∧ n.srv = (textApi name s op).2) := by
  obtain ⟨w, l, hw, hl⟩ := text_sends name op ho
  obtain ⟨o, h1, h2⟩ := one_sends hw hl (Props.C52_text_call name op ho s hs)
  refine ⟨w, hw, fun n hn => ?_⟩
  obtain ⟨a, b⟩ := C77_one framed_memcached hR h1 (memcached_idle _) hn
  exact ⟨a, fun hst => ⟨by rw [(b hst).1]; exact h2, (b hst).2.1⟩⟩

/-- **C77 (meta).** The same for a meta client, except `GetMulti`. -/
theorem C77_meta {R : Room} (hR : R.Some) (op : Op) (s : Store) (hs : GoodMetaStore s) (ho : GoodMetaOp s op)
    (hb : ¬ Batch .metap op) :
    ∃ w, (Mc.metaCall op).wire = .ok w ∧ ∀ n, Reach memcached R (start s w) n →
      (Stuck memcached R n ↔ Through memcached s w n)
      ∧ (Stuck memcached R n → (Mc.metaCall op).rd n.heard = ((metaApi s op).1, []) ∧ n.srv = (metaApi s op).2) := by
  obtain ⟨w, l, hw, hl⟩ := meta_sends s op ho hb
  obtain ⟨o, h1, h2⟩ := one_sends hw hl (Props.C52_meta_call op s hs ho)
  refine ⟨w, hw, fun n hn => ?_⟩
  obtain ⟨a, b⟩ := C77_one framed_memcached hR h1 (memcached_idle _) hn
  exact ⟨a, fun hst => ⟨by rw [(b hst).1]; exact h2, (b hst).2.1⟩⟩

/-! ### memcached, binary -/

theorem binary_idle (te : Entry → Bytes) (s : Store) : (memcachedBinary te).next s [] = none := rfl

/-- `w` is one binary request. -/
def OneReq (w : Bytes) : Prop := ∃ r, McBin.readReq w = (.ok (some r), [])

theorem oneReq_raw (op dt : UInt8) (extras key value : Bytes) (cas : Nat) (he : extras.length < 256)
    (hk : key.length < 2 ^ 16) (ht : extras.length + key.length + value.length < 2 ^ 32) (hc : cas < 2 ^ 64) :
    OneReq (McBin.reqBytes op dt extras key value cas) :=
  ⟨_, by have := McBin.readReq_raw op dt extras key value [] cas he hk ht hc; rwa [List.append_nil] at this⟩

theorem small_key {k : Bytes} (hk : Key k) (n : Nat) (hn : n < 256) : n + k.length + 0 < 2 ^ 32 := by
  have := hk.2
  have : (2 : Nat) ^ 32 = 4294967296 := by decide
  omega

theorem bin_oneReq (h1 h2 : Bin.ReqHdr) (op : Op) (ho : BinArgs op) (hh : IsCount op → h1.cas = 0)
    (hb : ¬ Batch .binary op) : ∃ w, (Mc.binCall h1 h2 op).wire = .ok w ∧ OneReq w := by
  cases op with
  | get k =>
    have hk : Key k := ho
    exact ⟨_, Props.wire_get h1 hk, oneReq_raw 0 0 [] k [] 0 (by simp) (Props.key16 hk) (small_key hk 0 (by decide)) (by decide)⟩
  | getMulti ks => exact absurd trivial hb
  | set i =>
    have hi : GoodBinItem i := ho
    exact ⟨_, Props.wire_store h1 1 hi, oneReq_raw 1 0 _ _ _ _ (by rw [Props.storeExtras_len hi]; decide)
      (Props.key16 hi.good.key) (Props.total_small hi) hi.good.cas⟩
  | add i =>
    have hi : GoodBinItem i := ho
    exact ⟨_, Props.wire_store h1 2 hi, oneReq_raw 2 0 _ _ _ _ (by rw [Props.storeExtras_len hi]; decide)
      (Props.key16 hi.good.key) (Props.total_small hi) hi.good.cas⟩
  | replace i =>
    have hi : GoodBinItem i := ho
    exact ⟨_, Props.wire_store h1 3 hi, oneReq_raw 3 0 _ _ _ _ (by rw [Props.storeExtras_len hi]; decide)
      (Props.key16 hi.good.key) (Props.total_small hi) hi.good.cas⟩
  | delete k =>
    have hk : Key k := ho
    exact ⟨_, Props.wire_delete h1 hk, oneReq_raw 4 0 [] k [] 0 (by simp) (Props.key16 hk) (small_key hk 0 (by decide)) (by decide)⟩
  | increment k d e =>
    have hk : Key k := ho.1
    have hl : (Bin.incrExtra d e).length = 20 := by simp [Bin.incrExtra, putBE_length]
    exact ⟨_, Props.wire_count h1 5 hk d e, oneReq_raw _ _ _ _ _ _ (by rw [hl]; decide) (Props.key16 hk)
      (by rw [hl]; exact small_key hk 20 (by decide)) (by rw [hh trivial]; decide)⟩
  | decrement k d e =>
    have hk : Key k := ho.1
    have hl : (Bin.incrExtra d e).length = 20 := by simp [Bin.incrExtra, putBE_length]
    exact ⟨_, Props.wire_count h1 6 hk d e, oneReq_raw _ _ _ _ _ _ (by rw [hl]; decide) (Props.key16 hk)
      (by rw [hl]; exact small_key hk 20 (by decide)) (by rw [hh trivial]; decide)⟩
  | touch k e =>
    have hk : Key k := ho.1
    exact ⟨_, Props.wire_touch h1 hk e, oneReq_raw _ _ _ _ _ _ (by rw [putBE_length]; decide) (Props.key16 hk)
      (by rw [putBE_length]; exact small_key hk 4 (by decide)) (by decide)⟩
  | flush => exact ⟨_, Props.wire_flush h1, oneReq_raw 8 0 [] [] [] 0 (by simp) (by simp) (by simp) (by decide)⟩

theorem oneReq_ne {w : Bytes} (h : OneReq w) : w ≠ [] := by
  rintro rfl
  obtain ⟨r, hr⟩ := h
  have := McBin.readReq_lt hr
  simp at this

theorem one_bin {te : Entry → Bytes} {c : Call Out} {w : Bytes} {s s' : Store} {res : Res Out} {left : Bytes}
    (hw : c.wire = .ok w) (hs : OneReq w) (hx : McBin.exchange te c s [] = some (res, s', left)) :
    ∃ o, (memcachedBinary te).next s w = some (o, s', []) ∧ c.rd o = (res, left) := by
  have hne := oneReq_ne hs
  obtain ⟨r, hr⟩ := hs
  unfold McBin.exchange at hx
  rw [hw] at hx
  have ha : McBin.answer te s w = some (McBin.exec te s r) := by
    cases w with
    | nil => exact absurd rfl hne
    | cons b i =>
      unfold McBin.answer
      simp only [List.length_cons, McBin.answerLoop, hr, McBin.answerLoop_nil]
      simp
  have hx' : (if (c.rd (McBin.exec te s r).1).1 = .err .io then none
      else some ((c.rd (McBin.exec te s r).1).1, (McBin.exec te s r).2, (c.rd (McBin.exec te s r).1).2))
        = some (res, s', left) := by
    simp only [ha, List.nil_append] at hx
    exact hx
  split at hx'
  · cases hx'
  · simp only [Option.some.injEq, Prod.mk.injEq] at hx'
    refine ⟨(McBin.exec te s r).1, ?_, Prod.ext hx'.1 hx'.2.2⟩
    show (match McBin.readReq w with
      | (.ok (some r), rest) => some ((McBin.exec te s r).1, (McBin.exec te s r).2, rest)
      | _ => none) = _
    rw [hr]
    simp only [hx'.2.1]

/-- **C77 (binary).** The same for a binary client, except `GetMulti`. -/
theorem C77_binary {R : Room} (hR : R.Some) (te : Entry → Bytes) (hte : ∀ e, (te e).length < 256) (h1 h2 : Bin.ReqHdr)
    (op : Op) (ho : BinArgs op) (s : Store) (hs : GoodStore s) (hh : IsCount op → h1.cas = 0) (hb : ¬ Batch .binary op) :
    ∃ w, (Mc.binCall h1 h2 op).wire = .ok w ∧ ∀ n, Reach (memcachedBinary te) R (start s w) n →
      (Stuck (memcachedBinary te) R n ↔ Through (memcachedBinary te) s w n)
      ∧ (Stuck (memcachedBinary te) R n → ((Mc.binCall h1 h2 op).rd n.heard).1 = (binApi s op).1
          ∧ n.srv = (binApi s op).2) := by
  obtain ⟨w, hw, hl⟩ := bin_oneReq h1 h2 op ho hh hb
  obtain ⟨o, g1, g2⟩ := one_bin hw hl (Props.C52_binary_call te hte h1 h2 op ho s hs hh)
  refine ⟨w, hw, fun n hn => ?_⟩
  obtain ⟨a, b⟩ := C77_one (framed_memcachedBinary te) hR g1 (binary_idle te _) hn
  exact ⟨a, fun hst => ⟨by rw [(b hst).1, g2], (b hst).2.1⟩⟩

/-! ### `GetMulti` -/

/-- The line a meta `GetMulti` sends for a key, and what memcached answers. -/
def mgLine (k : Bytes) : Bytes := b!"mg " ++ k ++ b!" v f k c t\r\n"
def mgReply (s : Store) (k : Bytes) : Bytes := (Mc.exec s (.mg k [b!"v", b!"f", b!"k", b!"c", b!"t"])).1

theorem mgReply_pos (s : Store) (k : Bytes) : 0 < (mgReply s k).length := by
  unfold mgReply Mc.exec
  simp only
  cases s.find k with
  | none => simp
  | some e => simp

theorem meta_replies (s : Store) (ks : List Bytes) (hk : ∀ k ∈ ks, Key k) (tail : Bytes) :
    Replies memcached s (ks.flatMap mgLine ++ tail) (ks.flatMap (mgReply s)) s tail := by
  induction ks with
  | nil => exact .done _ _
  | cons k ks ih =>
    have h1 : memcached.next s (mgLine k ++ (ks.flatMap mgLine ++ tail)) = _ :=
      Mc.step_sends (Props.sends_mg_multi k (hk k (by simp))) s (ks.flatMap mgLine ++ tail)
    have h2 := Replies.more (P := memcached) h1 (ih fun x hx => hk x (by simp [hx]))
    have e : (Mc.execLine s (some (Mc.Cmd.mg k [b!"v", b!"f", b!"k", b!"c", b!"t"]))).1 = mgReply s k := rfl
    rw [e] at h2
    simpa using h2

theorem length_flatMap_ge {α : Type} (f : α → Bytes) (hf : ∀ a, 0 < (f a).length) (l : List α) :
    l.length ≤ (l.flatMap f).length := by
  induction l with
  | nil => simp
  | cons a l ih => have := hf a; simp only [List.flatMap_cons, List.length_append, List.length_cons]; omega

theorem mgLine_pos (k : Bytes) : 0 < (mgLine k).length := by simp [mgLine]

theorem meta_wire (ks : List Bytes) : (Mc.metaCall (.getMulti ks)).wire = .ok (ks.flatMap mgLine ++ b!"mn\r\n") := rfl

/-- **C77 (meta GetMulti that fits).** A meta `GetMulti` comes through if all the answers together fit into the
connection. -/
theorem C77_meta_multi_fits {R : Room} (hR : R.Some) (ks : List Bytes) (s : Store) (hs : GoodMetaStore s)
    (hk : ∀ k ∈ ks, Key k ∧ (s.find k).isSome) (hl : (ks.flatMap (mgReply s)).length + 4 ≤ R.down) :
    ∃ w, (Mc.metaCall (.getMulti ks)).wire = .ok w ∧ ∀ n, Reach memcached R (start s w) n →
      (Stuck memcached R n ↔ Through memcached s w n)
      ∧ (Stuck memcached R n → (Mc.metaCall (.getMulti ks)).rd n.heard = ((metaApi s (.getMulti ks)).1, [])
          ∧ n.srv = s) := by
  refine ⟨_, meta_wire ks, fun n hn => ?_⟩
  have h1 : memcached.next s (b!"mn\r\n") = some (b!"MN\r\n", s, []) := rfl
  have hr := (meta_replies s ks (fun k h => (hk k h).1) b!"mn\r\n").trans (.more h1 (.done s []))
  rw [List.append_nil] at hr
  obtain ⟨a, b⟩ := C77_all_fit framed_memcached hR hr (memcached_idle _) (by simpa using hl) hn
  refine ⟨a, fun hst => ⟨?_, (b hst).2.1⟩⟩
  have hx := Props.C52_meta_call (.getMulti ks) s hs hk
  have ha := Props.answer_multi s ks (fun k h => (hk k h).1)
  unfold Mc.exchange at hx
  rw [meta_wire] at hx
  have e : Mc.answer s (ks.flatMap mgLine ++ b!"mn\r\n") = some (ks.flatMap (mgReply s) ++ b!"MN\r\n", s) := ha
  simp only [e] at hx
  rw [(b hst).1]
  cases hrd : (Mc.metaCall (.getMulti ks)).rd (ks.flatMap (mgReply s) ++ b!"MN\r\n") with
  | mk x r =>
    have hx' : (match ((x, r) : Res Out × Bytes) with
      | (res, []) => if res = .err .io then none else some (res, s)
      | _ => none) = some (metaApi s (.getMulti ks)) := by rw [← hrd]; exact hx
    cases r with
    | cons a b => cases hx'
    | nil =>
      simp only at hx'
      split at hx'
      · cases hx'
      · simp only [Option.some.injEq] at hx'
        rw [← hx']

/-- **C77 (meta GetMulti that does not fit).** If the answers to the first keys `as` do not fit into the connection and
the requests for the other keys `bs` do not either, a meta `GetMulti` never returns (unless a deadline ends it with an
error): every run ends with client and server waiting for each other, and nothing has been read. -/
theorem C77_meta_multi {R : Room} (hR : R.Some) (as bs : List Bytes) (hk : ∀ k ∈ as, Key k) (s : Store)
    (ha : R.down < (as.flatMap (mgReply s)).length) (hb : R.up + R.ahead ≤ (bs.flatMap mgLine).length + 4) :
    ∃ w, (Mc.metaCall (.getMulti (as ++ bs))).wire = .ok w ∧ ∀ n, Reach memcached R (start s w) n →
      n.toSend ≠ [] ∧ n.heard = [] ∧ (Stuck memcached R n ↔ Locked R n) := by
  refine ⟨as.flatMap mgLine ++ (bs.flatMap mgLine ++ b!"mn\r\n"), by rw [meta_wire]; simp, fun n hn => ?_⟩
  have hr := meta_replies s as hk []
  rw [List.append_nil] at hr
  exact C77_too_much framed_memcached hR hr ha (by simpa using hb) hn

/-- **C77 (meta GetMulti of many keys).** In particular, whatever memcached contains, for every connection there is a
number of keys from which on a meta `GetMulti` never returns. -/
theorem C77_meta_multi_many {R : Room} (hR : R.Some) (ks : List Bytes) (hk : ∀ k ∈ ks, Key k) (s : Store)
    (hl : R.up + R.down + R.ahead < ks.length) :
    ∃ w, (Mc.metaCall (.getMulti ks)).wire = .ok w ∧ ∀ n, Reach memcached R (start s w) n →
      n.toSend ≠ [] ∧ n.heard = [] ∧ (Stuck memcached R n ↔ Locked R n) := by
  have h1 := length_flatMap_ge (mgReply s) (mgReply_pos s) (ks.take (R.down + 1))
  have h2 := length_flatMap_ge mgLine mgLine_pos (ks.drop (R.down + 1))
  have := C77_meta_multi hR (ks.take (R.down + 1)) (ks.drop (R.down + 1)) (fun k h => hk k (List.mem_of_mem_take h)) s
    (by rw [List.length_take] at h1; omega) (by rw [List.length_drop] at h2; omega)
  rwa [List.take_append_drop] at this

/-- What memcached answers to the request of a binary `GetMulti` for a key: nothing when it does not have it. -/
def kqReply (s : Store) (k : Bytes) : Bytes := (Props.hitOf s k).toList.flatMap Props.BinHit.bytes

theorem kq_next (te : Entry → Bytes) (s : Store) {k : Bytes} (hk : Key k) (tail : Bytes) :
    (memcachedBinary te).next s (McBin.reqBytes 13 0 [] k [] 0 ++ tail) = some (kqReply s k, s, tail) := by
  have h := McBin.readReq_raw 13 0 [] k [] tail 0 (by simp) (Props.key16 hk) (small_key hk 0 (by decide)) (by decide)
  show (match McBin.readReq _ with
      | (.ok (some r), rest) => some ((McBin.exec te s r).1, (McBin.exec te s r).2, rest)
      | _ => none) = _
  rw [h]
  simp only [Props.exec_getKQ]
  rfl

theorem bin_replies (te : Entry → Bytes) (s : Store) (ks : List Bytes) (hk : ∀ k ∈ ks, Key k) (h : Bin.ReqHdr)
    (tail : Bytes) :
    Replies (memcachedBinary te) s ((Bin.getKQs h ks).1 ++ tail) (ks.flatMap (kqReply s)) s tail := by
  induction ks generalizing h with
  | nil => exact .done _ _
  | cons k ks ih =>
    obtain ⟨h', he⟩ := Props.getKQs_cons h (hk k (by simp)) ks
    have h1 := kq_next te s (hk k (by simp)) ((Bin.getKQs h' ks).1 ++ tail)
    have h2 := Replies.more (P := memcachedBinary te) h1 (ih (fun x hx => hk x (by simp [hx])) h')
    rw [he, List.append_assoc]
    exact h2

theorem getKQs_append (h : Bin.ReqHdr) (as bs : List Bytes) :
    ∃ h', Bin.getKQs h (as ++ bs) = ((Bin.getKQs h as).1 ++ (Bin.getKQs h' bs).1, (Bin.getKQs h' bs).2) := by
  induction as generalizing h with
  | nil => exact ⟨h, by simp [Bin.getKQs]⟩
  | cons a as ih =>
    obtain ⟨h', e⟩ := ih (Bin.getKQHdr h a)
    exact ⟨h', by simp [Bin.getKQs, e]⟩

theorem bin_wire (h1 h2 : Bin.ReqHdr) (ks : List Bytes) :
    (Mc.binCall h1 h2 (.getMulti ks)).wire = .ok ((Bin.getKQs h1 ks).1 ++ (Bin.noopHdr h2).encode) := rfl

theorem kq_length (h : Bin.ReqHdr) (ks : List Bytes) : 24 * ks.length ≤ (Bin.getKQs h ks).1.length := by
  induction ks generalizing h with
  | nil => simp
  | cons k ks ih =>
    have := ih (Bin.getKQHdr h k)
    have e : ((Bin.getKQHdr h k).encode).length = 24 := by rw [encode_raw, rawHdr_length]
    simp only [Bin.getKQs, List.length_append, List.length_cons, e]
    omega

/-- **C77 (binary GetMulti that does not fit).** The same for a binary `GetMulti`: `as` are the keys asked for first, of
which memcached answers those it has. -/
theorem C77_binary_multi {R : Room} (hR : R.Some) (te : Entry → Bytes) (h1 h2 : Bin.ReqHdr) (as bs : List Bytes)
    (hk : ∀ k ∈ as, Key k) (s : Store)
    (ha : R.down < (as.flatMap (kqReply s)).length) (hb : R.up + R.ahead ≤ 24 * bs.length + 24) :
    ∃ w, (Mc.binCall h1 h2 (.getMulti (as ++ bs))).wire = .ok w ∧ ∀ n, Reach (memcachedBinary te) R (start s w) n →
      n.toSend ≠ [] ∧ n.heard = [] ∧ (Stuck (memcachedBinary te) R n ↔ Locked R n) := by
  obtain ⟨h', e⟩ := getKQs_append h1 as bs
  refine ⟨(Bin.getKQs h1 as).1 ++ ((Bin.getKQs h' bs).1 ++ (Bin.noopHdr h2).encode), by rw [bin_wire, e]; simp,
    fun n hn => ?_⟩
  have hr := bin_replies te s as hk h1 []
  rw [List.append_nil] at hr
  have := kq_length h' bs
  refine C77_too_much (framed_memcachedBinary te) hR hr ha ?_ hn
  rw [List.length_append, encode_raw, rawHdr_length]
  omega

theorem kqReply_pos {s : Store} {k : Bytes} (h : (s.find k).isSome) : 0 < (kqReply s k).length := by
  obtain ⟨e, he⟩ := Option.isSome_iff_exists.1 h
  unfold kqReply Props.hitOf
  rw [he]
  simp only [Option.map_some, Option.toList_some, List.flatMap_cons, List.flatMap_nil, Props.BinHit.bytes,
    List.length_append, putBE_length]
  omega

/-- **C77 (binary GetMulti of many keys).** Keys memcached has, more than the connection holds bytes. -/
theorem C77_binary_multi_many {R : Room} (hR : R.Some) (te : Entry → Bytes) (h1 h2 : Bin.ReqHdr) (ks : List Bytes)
    (s : Store) (hk : ∀ k ∈ ks, Key k ∧ (s.find k).isSome) (hl : R.up + R.down + R.ahead < ks.length) :
    ∃ w, (Mc.binCall h1 h2 (.getMulti ks)).wire = .ok w ∧ ∀ n, Reach (memcachedBinary te) R (start s w) n →
      n.toSend ≠ [] ∧ n.heard = [] ∧ (Stuck (memcachedBinary te) R n ↔ Locked R n) := by
  have ge : ∀ l : List Bytes, (∀ k ∈ l, (s.find k).isSome) → l.length ≤ (l.flatMap (kqReply s)).length := by
    intro l hl
    induction l with
    | nil => simp
    | cons a l ih =>
      have := kqReply_pos (hl a (by simp))
      have := ih fun x hx => hl x (by simp [hx])
      simp only [List.flatMap_cons, List.length_append, List.length_cons]; omega
  have h3 := ge (ks.take (R.down + 1)) (fun k h => (hk k (List.mem_of_mem_take h)).2)
  have h4 := List.length_drop (i := R.down + 1) (l := ks)
  have := C77_binary_multi hR te h1 h2 (ks.take (R.down + 1)) (ks.drop (R.down + 1))
    (fun k h => (hk k (List.mem_of_mem_take h)).1) s
    (by rw [List.length_take] at h3; omega) (by omega)
  rwa [List.take_append_drop] at this

theorem replies_answer (te : Entry → Bytes) (n : Nat) (s s' : Store) (w rep : Bytes)
    (h : McBin.answerLoop te n s w = some (rep, s')) : Replies (memcachedBinary te) s w rep s' [] := by
  induction n generalizing s w rep with
  | zero =>
    cases w with
    | nil => cases h; exact .done _ _
    | cons b i => cases h
  | succ n ih =>
    cases w with
    | nil => cases h; exact .done _ _
    | cons b i =>
      have h' : (match McBin.readReq (b :: i) with
        | (.ok (some r), rest) =>
          (McBin.answerLoop te n (McBin.exec te s r).2 rest).map fun q => ((McBin.exec te s r).1 ++ q.1, q.2)
        | _ => none) = some (rep, s') := h
      cases hr : McBin.readReq (b :: i) with
      | mk x rest =>
        rw [hr] at h'
        cases x with
        | err e => cases h'
        | panic => cases h'
        | ok y =>
          cases y with
          | none => cases h'
          | some r =>
            simp only [Option.map_eq_some_iff] at h'
            obtain ⟨⟨o, s1⟩, hq, e⟩ := h'
            simp only [Prod.mk.injEq] at e
            obtain ⟨rfl, rfl⟩ := e
            refine .more ?_ (ih _ _ _ hq)
            show (match McBin.readReq _ with
              | (.ok (some r), rest) => some ((McBin.exec te s r).1, (McBin.exec te s r).2, rest)
              | _ => none) = _
            rw [hr]

/-- **C77 (binary GetMulti that fits).** -/
theorem C77_binary_multi_fits {R : Room} (hR : R.Some) (te : Entry → Bytes) (hte : ∀ e, (te e).length < 256)
    (h1 h2 : Bin.ReqHdr) (ks : List Bytes) (s : Store) (hs : GoodStore s) (hk : ∀ k ∈ ks, Key k)
    (hl : (ks.flatMap (kqReply s)).length + 24 ≤ R.down) :
    ∃ w, (Mc.binCall h1 h2 (.getMulti ks)).wire = .ok w ∧ ∀ n, Reach (memcachedBinary te) R (start s w) n →
      (Stuck (memcachedBinary te) R n ↔ Through (memcachedBinary te) s w n)
      ∧ (Stuck (memcachedBinary te) R n → ((Mc.binCall h1 h2 (.getMulti ks)).rd n.heard).1 = (binApi s (.getMulti ks)).1
          ∧ n.srv = s) := by
  have hx := Props.C52_binary_call te hte h1 h2 (.getMulti ks) hk s hs (fun h => h.elim)
  obtain ⟨w, rep, hw, ha, hrd, _⟩ := McBin.exchange_parts hx
  have hr0 := replies_answer te _ s _ w rep ha
  have hwe : w = (Bin.getKQs h1 ks).1 ++ (Bin.noopHdr h2).encode := Res.ok.inj (hw.symm.trans (bin_wire h1 h2 ks))
  have hn : (memcachedBinary te).next s (Bin.noopHdr h2).encode = some (rawRes 10 0 0 0 0 0 0 0, s, []) := by
    have e : (Bin.noopHdr h2).encode = McBin.reqBytes 10 0 [] [] [] 0 ++ [] := by
      simp [Bin.noopHdr, Bin.ReqHdr.reset, encode_raw, McBin.reqBytes, Bin.opNoop]
    have h := McBin.readReq_raw 10 0 [] [] [] [] 0 (by simp) (by simp) (by simp) (by decide)
    have hx : McBin.exec te s (McBin.mk 10 [] [] [] 0) = (rawRes 10 0 0 0 0 0 0 0, s) := by
      simp [McBin.exec, McBin.mk, McBin.reply, rawRes]
    show (match McBin.readReq _ with
      | (.ok (some r), rest) => some ((McBin.exec te s r).1, (McBin.exec te s r).2, rest)
      | _ => none) = _
    rw [e, h]
    simp only [hx]
  have hr := (bin_replies te s ks hk h1 (Bin.noopHdr h2).encode).trans (.more hn (.done s []))
  rw [← hwe, List.append_nil] at hr
  obtain ⟨e1, e2, _⟩ := hr0.unique hr (binary_idle te _) (binary_idle te _)
  refine ⟨w, hw, fun n hn' => ?_⟩
  obtain ⟨a, b⟩ := C77_all_fit (framed_memcachedBinary te) hR hr (binary_idle te _)
    (by rw [List.length_append, rawRes_length]; exact hl) hn'
  exact ⟨a, fun hst => ⟨by rw [(b hst).1, ← e1, hrd], (b hst).2.1⟩⟩

end Flow
end Verif
