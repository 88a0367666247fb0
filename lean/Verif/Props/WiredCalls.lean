import Verif.Props.Wired
/-!
C84: the calls of the text and meta clients (except GetMulti of the meta client) are one command each.
-/

namespace Verif
namespace Wired
open Kv Spec Mc Pool Cluster Props

variable {S M : Type} [DecidableEq S]

/-- The request of a call is one command. -/
def OneCmd (c : Call Out) : Prop := ∃ w cmd, c.wire = .ok w ∧ Sends w cmd

theorem OneCmd.proper {c : Call Out} (h : OneCmd c) {s : Store} (he : exchange c s ≠ none) : ProperCall c s := by
  obtain ⟨w, cmd, h1, -, h2⟩ := h
  exact ⟨w, cmd, h1, by have := h2 []; rwa [List.append_nil] at this, he⟩

theorem arith_cmd (c : Call Out) (op : Bytes) (up : Bool) (key : Bytes) (delta : Int)
    (hc : c = (Text.incrOrDecr op key delta).map .num) (hop : Plain op)
    (hp : ∀ k d, parseLine [op, k, d] = (parseUint d 64).map fun d => .done (.arith up k d)) (hk : Key key) : OneCmd c := by
  subst hc
  have hplain : ∀ w ∈ [op, key, intDec delta], Plain w := by
    intro w hw
    simp only [List.mem_cons, List.not_mem_nil, or_false] at hw
    rcases hw with rfl | rfl | rfl
    · exact hop
    · exact keyPlain hk
    · exact intDec_plain _
  have hwire : ((Text.incrOrDecr op key delta).map Out.num).wire = .ok (joinSp [op, key, intDec delta] ++ crlf) := by
    simp [Call.map, Text.incrOrDecr, joinSp]
  refine ⟨_, ((parseUint (intDec delta) 64).map fun d => .arith up key d), hwire, sends_line _ _ (by simp) hplain ?_⟩
  rw [hp]
  cases parseUint (intDec delta) 64 <;> rfl

theorem text_cmd (name : Bytes) (op : Op) (ho : GoodOp op) : OneCmd (textCall name op) := by
  cases op with
  | get k =>
    have hk : Key k := ho
    refine ⟨_, some (.gets [k]), rfl, ?_⟩
    have := sends_line [b!"gets", k] (some (.gets [k])) (by simp)
      (by intro w hw; simp at hw; rcases hw with rfl | rfl; decide; exact keyPlain hk) rfl
    simpa [joinSp] using this
  | getMulti ks =>
    obtain ⟨hne, hks⟩ := ho
    refine ⟨_, some (.gets ks), rfl, ?_⟩
    have := sends_line (b!"gets" :: ks) (some (.gets ks)) (by simp)
      (by intro w hw; simp at hw; rcases hw with rfl | hw; decide; exact keyPlain (hks w hw))
      (by simp [parseLine, hne])
    cases ks with
    | nil => exact absurd rfl hne
    | cons k ks => simpa [joinSp] using this
  | set i => exact ⟨_, _, rfl, sends_set i (plainItem ho)⟩
  | add i => exact ⟨_, _, rfl, sends_store b!"add" .add i (plainItem ho) (by decide) (fun _ _ _ _ => rfl)⟩
  | replace i => exact ⟨_, _, rfl, sends_store b!"replace" .replace i (plainItem ho) (by decide) (fun _ _ _ _ => rfl)⟩
  | delete k =>
    have hk : Key k := ho
    refine ⟨_, some (.delete k), rfl, ?_⟩
    have := sends_line [b!"delete", k] (some (.delete k)) (by simp)
      (by intro w hw; simp at hw; rcases hw with rfl | rfl; decide; exact keyPlain hk) rfl
    simpa [joinSp] using this
  | increment k d e => exact arith_cmd _ b!"incr" true k d rfl (by decide) (fun _ _ => rfl) ho.1
  | decrement k d e => exact arith_cmd _ b!"decr" false k d rfl (by decide) (fun _ _ => rfl) ho.1
  | touch k e =>
    obtain ⟨hk, he⟩ : Key k ∧ InRange 32 e := ho
    refine ⟨_, some (.touch k e), rfl, ?_⟩
    have := sends_line [b!"touch", k, intDec e] (some (.touch k e)) (by simp)
      (by intro w hw; simp at hw; rcases hw with rfl | rfl | rfl; decide; exact keyPlain hk; exact intDec_plain _)
      (by show (parseInt (intDec e) 32).map _ = _
          rw [parseInt_intDec e 32 he (by omega)]; rfl)
    simpa [joinSp] using this
  | flush => exact ⟨_, some .flush, rfl, sends_line [b!"flush_all"] (some .flush) (by simp) (by decide) rfl⟩

theorem meta_cmd (op : Op) (s : Store) (ho : GoodMetaOp s op) (hm : ∀ ks, op ≠ .getMulti ks) : OneCmd (metaCall op) := by
  cases op with
  | get k => exact ⟨_, _, rfl, sends_mg k ho⟩
  | getMulti ks => exact absurd rfl (hm ks)
  | set i =>
    have hi : GoodMetaItem i := ho
    obtain ⟨w, hw, hsend⟩ := sends_ms i (plainItem hi.good) (fun f hf => by have := (hi.flags f hf).1; omega)
    exact ⟨w, _, by show (Meta.set i).wire = _; exact hw, hsend⟩
  | add i =>
    have hi : GoodMetaItem i := ho
    exact text_cmd [] (.add i) hi.good
  | replace i =>
    have hi : GoodMetaItem i := ho
    exact text_cmd [] (.replace i) hi.good
  | delete k =>
    have hk : Key k := ho
    refine ⟨_, some (.md k), rfl, ?_⟩
    have := sends_line [b!"md", k] (some (.md k)) (by simp)
      (by intro w hw; simp at hw; rcases hw with rfl | rfl; decide; exact keyPlain hk) rfl
    simpa [joinSp] using this
  | increment k d e => exact text_cmd [] (.increment k d e) ho
  | decrement k d e => exact text_cmd [] (.decrement k d e) ho
  | touch k e => exact absurd ho (by simp [GoodMetaOp])
  | flush => exact text_cmd [] .flush trivial

theorem text_proper (name : Bytes) {op : Op} (ho : GoodOp op) {s : Store} (hs : GoodStore s) : ProperCall (textCall name op) s :=
  (text_cmd name op ho).proper (by rw [C52_text_call name op ho s hs]; simp)

theorem meta_proper {op : Op} {s : Store} (hs : GoodMetaStore s) (ho : GoodMetaOp s op) (hm : ∀ ks, op ≠ .getMulti ks) :
    ProperCall (metaCall op) s :=
  (meta_cmd op s ho hm).proper (by rw [C52_meta_call op s hs ho]; simp)

theorem text_readers {U : Setup S M} {name : S → Bytes} (h : U.call = fun s => textCall (name s)) : Readers U := fun s op => by
  rw [h]; exact ⟨stable_textCall (name s) op, by cases op <;> rfl⟩

theorem meta_readers {U : Setup S M} (h : U.call = fun _ => metaCall) : Readers U := fun s op => by
  rw [h]; exact ⟨stable_metaCall op, by cases op <;> rfl⟩

end Wired
end Verif
