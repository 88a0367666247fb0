import Verif.Props.MetaHistory
import Verif.Props.TextReplies
/-!
C17: which keys keep a request a single command.
-/

namespace Verif
namespace Spec
open Kv Mc

/-- Operation `op` concerns the one key `k`, with arguments in the ranges the protocol has. -/
def OpOn (k : Bytes) : Op → Prop
  | .get k' => k' = k
  | .getMulti ks => ks = [k]
  | .set i | .add i | .replace i => i.key = k ∧ i.value.length < 2 ^ 31 ∧ InRange 32 i.expiration ∧ i.cas < 2 ^ 64
  | .delete k' => k' = k
  | .increment k' _ _ | .decrement k' _ _ => k' = k
  | .touch k' _ => k' = k
  | .flush => False

/-- The bytes `w` are one command line (with its data), wherever they stand in a stream: a
memcached that starts reading at `w` has consumed exactly `w` after one command `c` (`none`: a
line it refuses), and `c` changes nothing but possibly key `k`. -/
def OneCommand (k w : Bytes) : Prop :=
  ∃ c : Option Cmd, (∀ rest, readCmd (w ++ rest) = (.ok c, rest))
    ∧ ∀ cmd, c = some cmd → ∀ (s : Store) (k' : Bytes), k' ≠ k → (exec s cmd).2.find k' = s.find k'

end Spec

namespace Props
open Kv Spec Mc

theorem find_write_ne {s : Store} {k k' : Bytes} {e : Option Entry} (h : k' ≠ k) :
    (s.write k e).find k' = s.find k' := by
  simp only [Store.find, Store.write, h, if_false]
  rfl

theorem find_put_ne {s : Store} {k k' v : Bytes} {f : Nat} {x : Option Nat} (h : k' ≠ k) :
    (s.put k v f x).find k' = s.find k' := by
  simp only [Store.find, Store.put, Store.write, h, if_false]
  rfl

theorem find_store_ne {s : Store} {m : Mode} {k k' v : Bytes} {f : Nat} {e : Int} (h : k' ≠ k) :
    (s.store m k v f e).2.find k' = s.find k' := by
  have hp := find_put_ne (s := s) (v := v) (f := f) (x := expiryOf s.now e) h
  unfold Store.store
  dsimp only
  split
  · exact hp
  · exact hp
  · rfl
  · exact hp
  · rfl
  · rfl
  · split
    · exact hp
    · rfl

theorem find_delete_ne {s : Store} {k k' : Bytes} (h : k' ≠ k) : (s.delete k).2.find k' = s.find k' := by
  unfold Store.delete
  split
  · exact find_write_ne h
  · rfl

theorem find_touch_ne {s : Store} {k k' : Bytes} {e : Int} (h : k' ≠ k) : (s.touch k e).2.find k' = s.find k' := by
  unfold Store.touch
  split
  · exact find_write_ne h
  · rfl

theorem find_arith_ne {s : Store} {up : Bool} {k k' : Bytes} {d : Nat} (h : k' ≠ k) :
    (s.arith up k d).2.find k' = s.find k' := by
  unfold Store.arith
  split
  · rfl
  · split
    · rfl
    · exact find_put_ne h

theorem oneCommand_line {k : Bytes} (ws : List Bytes) (c : Option Cmd) (hne : ws ≠ []) (h : ∀ w ∈ ws, Plain w)
    (hp : parseLine ws = c.map .done)
    (hc : ∀ cmd, c = some cmd → ∀ (s : Store) (k' : Bytes), k' ≠ k → (exec s cmd).2.find k' = s.find k') :
    OneCommand k (joinSp ws ++ crlf) := ⟨c, (sends_line ws c hne h hp).2, hc⟩

theorem oneCommand_store {k : Bytes} (cmd : Bytes) (m : Mode) (i : Item) (hk : Plain k) (hcmd : Plain cmd)
    (hi : i.key = k ∧ i.value.length < 2 ^ 31 ∧ InRange 32 i.expiration ∧ i.cas < 2 ^ 64)
    (hp : ∀ k f e n, parseLine [cmd, k, f, e, n] = storeLine m k f e n) :
    OneCommand k (Text.storeWire cmd i) := by
  obtain ⟨rfl, h2, h3, h4⟩ := hi
  refine ⟨_, (sends_store cmd m i ⟨hk, h2, h3, h4⟩ hcmd hp).2, ?_⟩
  rintro c hc s k' hk'
  cases hc
  exact find_store_ne hk'

theorem oneCommand_arith {k : Bytes} (op : Bytes) (up : Bool) (d : Int) (hk : Plain k) (hop : Plain op)
    (hp : ∀ k d, parseLine [op, k, d] = (parseUint d 64).map fun d => .done (.arith up k d)) :
    OneCommand k (op ++ 32 :: k ++ 32 :: intDec d ++ crlf) := by
  have e : op ++ 32 :: k ++ 32 :: intDec d ++ crlf = joinSp [op, k, intDec d] ++ crlf := by simp [joinSp]
  rw [e]
  refine oneCommand_line [op, k, intDec d] ((parseUint (intDec d) 64).map fun d => .arith up k d) (by simp) ?_ ?_ ?_
  · intro w hw
    simp only [List.mem_cons, List.not_mem_nil, or_false] at hw
    rcases hw with rfl | rfl | rfl
    · exact hop
    · exact hk
    · exact intDec_plain _
  · rw [hp]; cases parseUint (intDec d) 64 <;> rfl
  · intro c hc s k' hk'
    cases hu : parseUint (intDec d) 64 with
    | none => simp [hu] at hc
    | some n =>
      simp only [hu, Option.map_some, Option.some.injEq] at hc
      subst hc
      exact find_arith_ne hk'

theorem plain2 {a b : Bytes} (ha : Plain a) (hb : Plain b) : ∀ w ∈ [a, b], Plain w := by
  intro w hw
  simp only [List.mem_cons, List.not_mem_nil, or_false] at hw
  rcases hw with rfl | rfl <;> assumption

/-- C17, text protocol: a key without space and line feed keeps every request one command that
touches no other key. -/
theorem C17_text (name k : Bytes) (hk : Plain k) (op : Op) (ho : OpOn k op) :
    ∃ w, (textCall name op).wire = .ok w ∧ OneCommand k w := by
  cases op with
  | get k' =>
    cases (ho : k' = k)
    refine ⟨b!"gets " ++ k ++ crlf, rfl, ?_⟩
    have e : b!"gets " ++ k ++ crlf = joinSp [b!"gets", k] ++ crlf := by simp [joinSp]
    rw [e]
    refine oneCommand_line _ (some (.gets [k])) (by simp) (plain2 (by decide) hk) rfl ?_
    rintro c hc s x _; cases hc; rfl
  | getMulti ks =>
    cases (ho : ks = [k])
    refine ⟨b!"gets " ++ k ++ crlf, rfl, ?_⟩
    have e : b!"gets " ++ k ++ crlf = joinSp [b!"gets", k] ++ crlf := by simp [joinSp]
    rw [e]
    refine oneCommand_line _ (some (.gets [k])) (by simp) (plain2 (by decide) hk) rfl ?_
    rintro c hc s x _; cases hc; rfl
  | set i =>
    refine ⟨_, rfl, ?_⟩
    obtain ⟨rfl, h2, h3, h4⟩ := (ho : i.key = k ∧ _)
    refine ⟨_, (sends_set i ⟨hk, h2, h3, h4⟩).2, ?_⟩
    rintro c hc s k' hk'
    cases hc
    exact find_store_ne hk'
  | add i => exact ⟨_, rfl, oneCommand_store b!"add" .add i hk (by decide) ho (fun _ _ _ _ => rfl)⟩
  | replace i => exact ⟨_, rfl, oneCommand_store b!"replace" .replace i hk (by decide) ho (fun _ _ _ _ => rfl)⟩
  | delete k' =>
    cases (ho : k' = k)
    refine ⟨b!"delete " ++ k ++ crlf, rfl, ?_⟩
    have e : b!"delete " ++ k ++ crlf = joinSp [b!"delete", k] ++ crlf := by simp [joinSp]
    rw [e]
    refine oneCommand_line _ (some (.delete k)) (by simp) (plain2 (by decide) hk) rfl ?_
    rintro c hc s x hx; cases hc; exact find_delete_ne hx
  | increment k' d e =>
    cases (ho : k' = k)
    exact ⟨_, rfl, oneCommand_arith b!"incr" true d hk (by decide) (fun _ _ => rfl)⟩
  | decrement k' d e =>
    cases (ho : k' = k)
    exact ⟨_, rfl, oneCommand_arith b!"decr" false d hk (by decide) (fun _ _ => rfl)⟩
  | touch k' e =>
    cases (ho : k' = k)
    refine ⟨b!"touch " ++ k ++ 32 :: intDec e ++ crlf, rfl, ?_⟩
    have eq : b!"touch " ++ k ++ 32 :: intDec e ++ crlf = joinSp [b!"touch", k, intDec e] ++ crlf := by simp [joinSp]
    rw [eq]
    refine oneCommand_line _ ((parseInt (intDec e) 32).map fun e => .touch k e) (by simp) ?_ ?_ ?_
    · intro w hw
      simp only [List.mem_cons, List.not_mem_nil, or_false] at hw
      rcases hw with rfl | rfl | rfl
      · decide
      · exact hk
      · exact intDec_plain _
    · show (parseInt (intDec e) 32).map _ = _
      cases parseInt (intDec e) 32 <;> rfl
    · intro c hc s x hx
      cases hu : parseInt (intDec e) 32 with
      | none => simp [hu] at hc
      | some n =>
        simp only [hu, Option.map_some, Option.some.injEq] at hc
        subst hc
        exact find_touch_ne hx
  | flush => exact absurd ho (by simp [OpOn])

/-- Flags the meta client can send: none or at least four bytes (it panics on fewer). -/
def MetaFlagsOk : Op → Prop
  | .set i => ∀ f, i.flags = some f → 4 ≤ f.length
  | .getMulti _ => False
  | _ => True

/-- C17, meta protocol, every operation but GetMulti (which by design sends one command per key
and a final one). -/
theorem C17_meta (k : Bytes) (hk : Plain k) (op : Op) (ho : OpOn k op) (hf : MetaFlagsOk op) :
    ∃ w, (metaCall op).wire = .ok w ∧ OneCommand k w := by
  cases op with
  | get k' =>
    cases (ho : k' = k)
    refine ⟨b!"mg " ++ k ++ b!" v f c t\r\n", rfl, ?_⟩
    have e : b!"mg " ++ k ++ b!" v f c t\r\n" = joinSp [b!"mg", k, b!"v", b!"f", b!"c", b!"t"] ++ crlf := by
      simp [joinSp, crlf]
    rw [e]
    refine oneCommand_line _ (some (.mg k [b!"v", b!"f", b!"c", b!"t"])) (by simp) ?_ rfl ?_
    · simp only [List.forall_mem_cons]
      exact ⟨by decide, hk, by decide, by decide, by decide, by decide, by simp⟩
    · rintro c hc s x _; cases hc; rfl
  | getMulti ks => exact absurd hf (by simp [MetaFlagsOk])
  | set i =>
    obtain ⟨rfl, h2, h3, h4⟩ := (ho : i.key = k ∧ _)
    obtain ⟨w, hw, hs⟩ := sends_ms i ⟨hk, h2, h3, h4⟩ hf
    refine ⟨w, hw, _, hs.2, ?_⟩
    rintro c hc s k' hk'
    cases hc
    exact find_store_ne hk'
  | add i => exact ⟨_, rfl, oneCommand_store b!"add" .add i hk (by decide) ho (fun _ _ _ _ => rfl)⟩
  | replace i => exact ⟨_, rfl, oneCommand_store b!"replace" .replace i hk (by decide) ho (fun _ _ _ _ => rfl)⟩
  | delete k' =>
    cases (ho : k' = k)
    refine ⟨b!"md " ++ k ++ crlf, rfl, ?_⟩
    have e : b!"md " ++ k ++ crlf = joinSp [b!"md", k] ++ crlf := by simp [joinSp]
    rw [e]
    refine oneCommand_line _ (some (.md k)) (by simp) (plain2 (by decide) hk) rfl ?_
    rintro c hc s x hx; cases hc; exact find_delete_ne hx
  | increment k' d e =>
    cases (ho : k' = k)
    exact ⟨_, rfl, oneCommand_arith b!"incr" true d hk (by decide) (fun _ _ => rfl)⟩
  | decrement k' d e =>
    cases (ho : k' = k)
    exact ⟨_, rfl, oneCommand_arith b!"decr" false d hk (by decide) (fun _ _ => rfl)⟩
  | touch k' e =>
    cases (ho : k' = k)
    refine ⟨b!"md " ++ k ++ b!" I T" ++ intDec e ++ crlf, rfl, ?_⟩
    have eq : b!"md " ++ k ++ b!" I T" ++ intDec e ++ crlf = joinSp [b!"md", k, b!"I", b!"T" ++ intDec e] ++ crlf := by
      simp [joinSp]
    rw [eq]
    refine oneCommand_line _ none (by simp) ?_ rfl (by simp)
    simp only [List.forall_mem_cons]
    exact ⟨by decide, hk, by decide, plain_append (by decide) (intDec_plain _), by simp⟩
  | flush => exact absurd ho (by simp [OpOn])

/-! ### Other keys -/

theorem delete_find (s : Store) (k : Bytes) : (s.delete k).2.find k = none := by
  unfold Store.delete
  cases h : s.find k with
  | none => exact h
  | some e => simp [Store.find, Store.write]

/-- The two commands in a text Get of the key "k1\r\ndelete k2". -/
theorem answer_two {w1 w2 : Bytes} {c1 c2 : Option Cmd} (h1 : Sends w1 c1) (h2 : Sends w2 c2) (s : Store) :
    answer s (w1 ++ w2)
      = some ((execLine s c1).1 ++ (execLine (execLine s c1).2 c2).1, (execLine (execLine s c1).2 c2).2) := by
  unfold answer
  have hl : ∃ n, (w1 ++ w2).length = n + 2 := by
    have a := List.length_pos_iff.2 h1.1
    have b := List.length_pos_iff.2 h2.1
    exact ⟨(w1 ++ w2).length - 2, by simp; omega⟩
  obtain ⟨n, hn⟩ := hl
  rw [hn, answerLoop_sends h1]
  have := answerLoop_sends h2 n (execLine s c1).2 []
  rw [List.append_nil] at this
  rw [this, answerLoop_nil]
  simp

/-- C17: the client does not reject a key that contains a line end.  `Get("k1\r\ndelete k2")`
looks up `k1` and deletes `k2`, for all keys and contents ... -/
theorem C17_injection (name k1 k2 : Bytes) (h1 : Plain k1) (h2 : Plain k2) (s : Store) :
    ∃ w reply, (Text.get name (k1 ++ b!"\r\ndelete " ++ k2)).wire = .ok w
      ∧ answer s w = some (reply ++ (if (s.delete k2).1 then b!"DELETED\r\n" else b!"NOT_FOUND\r\n"), (s.delete k2).2)
      ∧ (s.delete k2).2.find k2 = none := by
  have s1 : Sends (b!"gets " ++ k1 ++ crlf) (some (.gets [k1])) := by
    have := sends_line [b!"gets", k1] (some (.gets [k1])) (by simp) (plain2 (by decide) h1) rfl
    simpa [joinSp] using this
  have s2 : Sends (b!"delete " ++ k2 ++ crlf) (some (.delete k2)) := by
    have := sends_line [b!"delete", k2] (some (.delete k2)) (by simp) (plain2 (by decide) h2) rfl
    simpa [joinSp] using this
  have e : b!"gets " ++ (k1 ++ b!"\r\ndelete " ++ k2) ++ crlf
      = (b!"gets " ++ k1 ++ crlf) ++ (b!"delete " ++ k2 ++ crlf) := by simp [crlf]
  refine ⟨_, valueBlocks s [k1] ++ b!"END\r\n", rfl, ?_, delete_find s k2⟩
  rw [e, answer_two s1 s2]
  rfl

/-- C17: ... and the reply to the delete stays unread, to be taken for the reply to the next
call. -/
theorem C17_injection_unread (name k1 k2 : Bytes) (h1 : Plain k1) (h2 : Plain k2) (s : Store)
    (hm : s.find k1 = none) :
    ∃ w reply, (Text.get name (k1 ++ b!"\r\ndelete " ++ k2)).wire = .ok w ∧ answer s w = some (reply, (s.delete k2).2)
      ∧ (Text.get name (k1 ++ b!"\r\ndelete " ++ k2)).rd reply
        = (.err .itemNotFound, if (s.delete k2).1 then b!"DELETED\r\n" else b!"NOT_FOUND\r\n") := by
  obtain ⟨w, reply, hw, ha, _⟩ := C17_injection name k1 k2 h1 h2 s
  have s1 : Sends (b!"gets " ++ k1 ++ crlf) (some (.gets [k1])) := by
    have := sends_line [b!"gets", k1] (some (.gets [k1])) (by simp) (plain2 (by decide) h1) rfl
    simpa [joinSp] using this
  have s2 : Sends (b!"delete " ++ k2 ++ crlf) (some (.delete k2)) := by
    have := sends_line [b!"delete", k2] (some (.delete k2)) (by simp) (plain2 (by decide) h2) rfl
    simpa [joinSp] using this
  have e : b!"gets " ++ (k1 ++ b!"\r\ndelete " ++ k2) ++ crlf
      = (b!"gets " ++ k1 ++ crlf) ++ (b!"delete " ++ k2 ++ crlf) := by simp [crlf]
  have hv : valueBlocks s [k1] = [] := by simp [valueBlocks, hm]
  refine ⟨_, b!"END\r\n" ++ (if (s.delete k2).1 then b!"DELETED\r\n" else b!"NOT_FOUND\r\n"), rfl, ?_, ?_⟩
  · rw [e, answer_two s1 s2]
    simp only [execLine, exec, hv]
    rfl
  · exact text_getReply_miss name _

/-- C17: with a space in the key of a text Set the command line is refused and the value is
executed: `Set(Item{Key: "a b", Value: "flush_all"})` empties the server. -/
theorem C17_space (a b : Bytes) (ha : Plain a) (hb : Plain b) (s : Store) :
    ∃ w, (Text.set { key := a ++ 32 :: b, value := b!"flush_all" }).wire = .ok w
      ∧ answer s w = some (b!"ERROR\r\n" ++ b!"OK\r\n", s.flush) := by
  have hp : parseLine [b!"set", a, b, natDec 0, intDec 0, natDec 9] = none := rfl
  have s1 : Sends (joinSp [b!"set", a, b, natDec 0, intDec 0, natDec 9] ++ crlf) none :=
    sends_line _ none (by simp) (by
      simp only [List.forall_mem_cons]
      exact ⟨by decide, ha, hb, natDec_plain _, intDec_plain _, natDec_plain _, by simp⟩) hp
  have s2 : Sends b!"flush_all\r\n" (some .flush) :=
    sends_line [b!"flush_all"] (some .flush) (by simp) (by decide) rfl
  have e : Text.setWire { key := a ++ 32 :: b, value := b!"flush_all" }
      = (joinSp [b!"set", a, b, natDec 0, intDec 0, natDec 9] ++ crlf) ++ b!"flush_all\r\n" := by
    simp [Text.setWire, joinSp, crlf, Text.flagsNum]
  refine ⟨_, rfl, ?_⟩
  rw [show (Text.setWire { key := a ++ 32 :: b, value := b!"flush_all" }) = _ from e, answer_two s1 s2]
  rfl

example : Plain b!"user:1" ∧ OpOn b!"user:1" (.set { key := b!"user:1", value := b!"delete x\r\n" }) :=
  ⟨by decide, rfl, by decide, by decide, by decide⟩

end Props
end Verif
