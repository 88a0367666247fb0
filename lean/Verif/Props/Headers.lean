import Verif.Client.Headers
import Verif.Lemmas.Reply
import Verif.Lemmas.BinReply
/-!
C28: what recycling request headers does to later requests; C26 for the binary protocol.
-/

namespace Verif
namespace Props
open Bin Spec

/-- The call is an `Increment` or a `Decrement`. -/
def Counting : BOp → Prop
  | .increment _ _ _ => True
  | .decrement _ _ _ => True
  | _ => False

/-- The call stores an item, with Cas `c`. -/
def StoresCas (c : Nat) : BOp → Prop
  | .set i => i.cas = c
  | .add i => i.cas = c
  | .replace i => i.cas = c
  | _ => False

/-- The bytes of an `Increment` (opcode 5) or `Decrement` (opcode 6) request carrying the Cas `c`:
header with key length, 20 bytes of extras and body length, then delta, initial value 1,
expiration and key. -/
def countRequest (opcode : UInt8) (key : Bytes) (delta expiration : Int) (c : Nat) : Bytes :=
  [0x80, opcode] ++ putBE 2 (key.length % 2 ^ 16) ++ [20, 0, 0, 0] ++ putBE 4 ((key.length + 20) % 2 ^ 32)
    ++ [0, 0, 0, 0] ++ putBE 8 c
    ++ (putBE 8 (toUnsigned 64 delta) ++ putBE 8 1 ++ putBE 4 (toUnsigned 32 expiration)) ++ key

theorem getKQs_fresh (h : ReqHdr) (ks : List Bytes) : (getKQs h ks).1 = (getKQs {} ks).1 := by
  cases ks with
  | nil => rfl
  | cons k ks => rfl

/-- C28: the request bytes of every call other than Increment and Decrement are the same whatever
headers are recycled. -/
theorem C28_independent (op : BOp) (hn : ¬ Counting op) (h1 h2 g1 g2 : ReqHdr) : op.wire h1 h2 = op.wire g1 g2 := by
  cases op with
  | getMulti ks =>
    show Res.ok ((getKQs h1 ks).1 ++ (noopHdr h2).encode) = Res.ok ((getKQs g1 ks).1 ++ (noopHdr g2).encode)
    rw [getKQs_fresh h1, getKQs_fresh g1]
    rfl
  | increment => exact absurd trivial hn
  | decrement => exact absurd trivial hn
  | _ => rfl

/-- C28: so in every history each of these requests is exactly what it would be as the first
request of the connection. -/
theorem C28_history {hist : List (BOp × Res Bytes)} {pool : List ReqHdr} (h : History hist pool)
    (op : BOp) (w : Res Bytes) (hm : (op, w) ∈ hist) (hn : ¬ Counting op) : w = op.wire {} {} := by
  induction h with
  | nil => simp at hm
  | call op' _ _ _ ih =>
    rcases List.mem_append.1 hm with hm | hm
    · exact ih hm
    · simp only [List.mem_singleton, Prod.mk.injEq] at hm
      obtain ⟨rfl, rfl⟩ := hm
      exact C28_independent _ hn ..

/-- What the pool can contain: headers without data type whose Cas is zero or was used by an
earlier storing call. -/
def CleanHdr (hist : List (BOp × Res Bytes)) (h : ReqHdr) : Prop :=
  h.dataType = 0 ∧ (h.cas = 0 ∨ ∃ op w, (op, w) ∈ hist ∧ StoresCas h.cas op)

theorem CleanHdr.mono {hist more : List (BOp × Res Bytes)} {h : ReqHdr} (c : CleanHdr hist h) :
    CleanHdr (hist ++ more) h := by
  refine ⟨c.1, c.2.imp id ?_⟩
  rintro ⟨op, w, hm, hs⟩
  exact ⟨op, w, List.mem_append_left _ hm, hs⟩

theorem cleanHdr_put1 (hist : List (BOp × Res Bytes)) (h1 : ReqHdr) (hc : CleanHdr hist h1) (op : BOp) (w : Res Bytes) :
    CleanHdr (hist ++ [(op, w)]) (op.put1 h1) := by
  have hz : ∀ h : ReqHdr, h.dataType = 0 → h.cas = 0 → CleanHdr (hist ++ [(op, w)]) h := fun h a b => ⟨a, .inl b⟩
  have hm : (op, w) ∈ hist ++ [(op, w)] := by simp
  have hk : ∀ ks h, CleanHdr (hist ++ [(op, w)]) h → CleanHdr (hist ++ [(op, w)]) (getKQs h ks).2 := by
    intro ks
    induction ks with
    | nil => intro h hh; exact hh
    | cons k ks ih => intro h hh; exact ih _ (hz _ rfl rfl)
  cases op with
  | getMulti ks => exact hk ks h1 hc.mono
  | set i => exact ⟨rfl, .inr ⟨_, _, hm, rfl⟩⟩
  | add i => exact ⟨rfl, .inr ⟨_, _, hm, rfl⟩⟩
  | replace i => exact ⟨rfl, .inr ⟨_, _, hm, rfl⟩⟩
  | increment k d e => exact hc.mono
  | decrement k d e => exact hc.mono
  | _ => exact hz _ rfl rfl

theorem history_clean {hist : List (BOp × Res Bytes)} {pool : List ReqHdr} (h : History hist pool) :
    ∀ g, Gettable pool g → CleanHdr hist g := by
  induction h with
  | nil =>
    intro g hg
    rcases hg with rfl | hg
    · exact ⟨rfl, .inl rfl⟩
    · simp at hg
  | @call hist pool op h1 h2 _ hg1 hg2 ih =>
    intro g hg
    have h1c := ih h1 hg1
    rcases hg with rfl | hg
    · exact ⟨rfl, .inl rfl⟩
    · rcases List.mem_append.1 hg with hg | hg
      · rcases List.mem_append.1 hg with hg | hg
        · exact (ih g (.inr hg)).mono
        · simp only [List.mem_singleton] at hg
          subst hg
          exact cleanHdr_put1 hist h1 h1c op _
      · cases op with
        | getMulti ks =>
          simp only [BOp.put2, List.mem_singleton] at hg
          subst hg
          exact ⟨rfl, .inl rfl⟩
        | _ => simp [BOp.put2] at hg

theorem count_wire (op : UInt8) (h : ReqHdr) (hd : h.dataType = 0) (k : Bytes) (d e : Int) :
    (incrOrDecr h op k d e).wire = .ok (countRequest op k d e h.cas) := by
  show Res.ok ((incrHdr h op k).encode ++ incrExtra d e ++ k) = _
  simp [incrHdr, ReqHdr.encode, countRequest, incrExtra, hd, putBE]

/-- C28: the Cas an Increment or Decrement carries, in every history: zero, or the Cas of some
earlier Set, Add or Replace on this connection.  Nothing else of its request varies. -/
theorem C28_counting {a b : List (BOp × Res Bytes)} {pool : List ReqHdr} (key : Bytes) (delta expiration : Int)
    (w : Res Bytes) :
    (History (a ++ (.increment key delta expiration, w) :: b) pool →
      ∃ c, w = .ok (countRequest 5 key delta expiration c)
        ∧ (c = 0 ∨ ∃ op w', (op, w') ∈ a ∧ StoresCas c op))
    ∧ (History (a ++ (.decrement key delta expiration, w) :: b) pool →
      ∃ c, w = .ok (countRequest 6 key delta expiration c)
        ∧ (c = 0 ∨ ∃ op w', (op, w') ∈ a ∧ StoresCas c op)) := by
  have key' : ∀ (op : BOp) (P : BOp → List (BOp × Res Bytes) → Res Bytes → Prop),
      (∀ a pool h1 h2, History a pool → Gettable pool h1 → P op a (op.wire h1 h2)) →
      ∀ hist pool, History hist pool → ∀ a b w, hist = a ++ (op, w) :: b → P op a w := by
    intro op P hP hist pool h
    induction h with
    | nil => intro a b w e; simp at e
    | @call hist pool op' h1 h2 hh hg1 hg2 ih =>
      intro a b w e
      rcases List.eq_nil_or_concat b with rfl | ⟨b', x, rfl⟩
      · obtain ⟨e1, e2⟩ := List.append_inj' e (by simp)
        simp only [List.cons.injEq, Prod.mk.injEq, and_true] at e2
        obtain ⟨rfl, rfl⟩ := e2
        subst e1
        exact hP _ _ _ _ hh hg1
      · have e' : hist ++ [(op', op'.wire h1 h2)] = (a ++ (op, w) :: b') ++ [x] := by simpa using e
        obtain ⟨e1, _⟩ := List.append_inj' e' (by simp)
        exact ih a b' w e1
  constructor
  · intro h
    refine key' (.increment key delta expiration) (fun _ a w => ∃ c, w = .ok (countRequest 5 key delta expiration c)
        ∧ (c = 0 ∨ ∃ op w', (op, w') ∈ a ∧ StoresCas c op)) ?_ _ _ h a b w rfl
    intro a pool h1 h2 hh hg
    obtain ⟨hd, hc⟩ := history_clean hh h1 hg
    exact ⟨h1.cas, count_wire 5 h1 hd .., hc⟩
  · intro h
    refine key' (.decrement key delta expiration) (fun _ a w => ∃ c, w = .ok (countRequest 6 key delta expiration c)
        ∧ (c = 0 ∨ ∃ op w', (op, w') ∈ a ∧ StoresCas c op)) ?_ _ _ h a b w rfl
    intro a pool h1 h2 hh hg
    obtain ⟨hd, hc⟩ := history_clean hh h1 hg
    exact ⟨h1.cas, count_wire 6 h1 hd .., hc⟩

/-- C28: hence as long as no item with a Cas was stored, counting requests too are those of a fresh
connection. -/
theorem C28_counting_clean {hist : List (BOp × Res Bytes)} {pool : List ReqHdr} (h : History hist pool)
    (hz : ∀ op w c, (op, w) ∈ hist → StoresCas c op → c = 0) (op : BOp) (w : Res Bytes) (hm : (op, w) ∈ hist) :
    w = op.wire {} {} := by
  by_cases hn : Counting op
  · obtain ⟨a, b, rfl⟩ := List.append_of_mem hm
    have fin : ∀ c, (c = 0 ∨ ∃ op' w', (op', w') ∈ a ∧ StoresCas c op') → c = 0 := by
      rintro c (rfl | ⟨op', w', hm', hs⟩)
      · rfl
      · exact hz op' w' c (by simp [hm']) hs
    cases op with
    | increment k d e =>
      obtain ⟨c, rfl, hc⟩ := (C28_counting k d e w).1 h
      rw [fin c hc]
      exact (count_wire 5 {} rfl k d e).symm
    | decrement k d e =>
      obtain ⟨c, rfl, hc⟩ := (C28_counting k d e w).2 h
      rw [fin c hc]
      exact (count_wire 6 {} rfl k d e).symm
    | _ => exact absurd hn (by simp [Counting])
  · exact C28_history h op w hm hn

/-- C28, the defect: after a Set with a Cas there is a history in which the next Increment carries
this Cas, for every item, key and delta. -/
theorem C28_stale (item : Item) (key : Bytes) (delta expiration : Int) :
    ∃ w pool, History [(.set item, w), (.increment key delta expiration,
      .ok (countRequest 5 key delta expiration item.cas))] pool := by
  have h1 := History.call (.set item) (h1 := {}) (h2 := {}) .nil (.inl rfl) (.inl rfl)
  have h2 := History.call (.increment key delta expiration) (h1 := storeHdr {} opSet item) (h2 := {}) h1
    (.inr (by simp [BOp.put1, BOp.put2])) (.inl rfl)
  have e : BOp.wire (storeHdr {} opSet item) {} (.increment key delta expiration)
      = .ok (countRequest 5 key delta expiration item.cas) := count_wire 5 (storeHdr {} opSet item) rfl key delta expiration
  rw [e] at h2
  exact ⟨_, _, h2⟩

/-- C28: and this request differs from the one it should be. -/
theorem C28_stale_differs (key : Bytes) (delta expiration : Int) (c : Nat) (h0 : 0 < c) (h : c < 2 ^ 64) :
    countRequest 5 key delta expiration c ≠ countRequest 5 key delta expiration 0 := by
  intro e
  simp only [countRequest, List.append_assoc] at e
  have e1 := List.append_cancel_left (List.append_cancel_left (List.append_cancel_left (List.append_cancel_left (List.append_cancel_left e))))
  have e2 := (List.append_inj e1 (by simp [putBE_length])).1
  have := congrArg getBE e2
  rw [getBE_putBE_lt 8 c (by simpa using h), getBE_putBE_lt 8 0 (by decide)] at this
  omega

/-! ### C26, binary -/

/-- A hit in a GetMulti reply: header with any opcode but no-op and status 0, and the three parts it
announces. -/
structure BinHit where
  head : Bytes
  flags : Bytes
  key : Bytes
  value : Bytes

structure BinHit.Ok (b : BinHit) : Prop where
  head : BinHead b.head
  opcode : opcodeOf b.head ≠ 10
  status : statusOf b.head = 0
  extras : b.flags.length = extraLenOf b.head
  key : b.key.length = keyLenOf b.head
  body : (b.flags ++ b.key ++ b.value).length = bodyLenOf b.head
  small : extraLenOf b.head + keyLenOf b.head < 2 ^ 16

def BinHit.bytes (b : BinHit) : Bytes := b.head ++ (b.flags ++ b.key ++ b.value)

theorem readHdr_head (h r : Bytes) (hb : BinHead h) : Bin.readHdr (h ++ r) = (.ok (Bin.ResHdr.ofBytes h), r) := by
  obtain ⟨h1, h2⟩ := hb
  unfold Bin.readHdr
  rw [Rd.bind_of_ok (readFull_append' 24 h r h1), h2]
  rfl

theorem multiLoop_hit (n : Nat) (acc : List Item) (b : BinHit) (hb : b.Ok) (rest : Bytes) :
    multiLoop (n + 1) acc (b.bytes ++ rest)
      = multiLoop n (acc ++ [{ key := b.key, value := b.value, flags := some b.flags }]) rest := by
  have hs : (ResHdr.ofBytes b.head).status = 0 := hb.status
  have ho : (ResHdr.ofBytes b.head).opcode ≠ opNoop := hb.opcode
  have hv : (ResHdr.ofBytes b.head).valueStart = b.flags.length + b.key.length := by
    rw [hb.extras, hb.key]; exact Nat.mod_eq_of_lt hb.small
  have he : (ResHdr.ofBytes b.head).extraLength = b.flags.length := hb.extras.symm
  have e1 : readHdr (b.bytes ++ rest) = (.ok (ResHdr.ofBytes b.head), (b.flags ++ b.key ++ b.value) ++ rest) := by
    unfold BinHit.bytes
    rw [List.append_assoc]; exact readHdr_head _ _ hb.head
  show (readHdr >>= _) _ = _
  rw [Rd.bind_of_ok e1, if_neg ho, if_neg (by rw [hs]; simp),
    Rd.bind_of_ok (readFull_append' _ _ _ (show _ = (ResHdr.ofBytes b.head).totalBodyLength from hb.body)), hv, he,
    slice_mid, Rd.bind_of_ok (Rd.lift_apply _ _)]
  have e2 : sliceFrom (b.flags ++ b.key ++ b.value) (b.flags.length + b.key.length) = .ok b.value := by
    rw [← List.length_append]; exact sliceFrom_left _ _
  have e3 : sliceTo (b.flags ++ b.key ++ b.value) b.flags.length = .ok b.flags := by
    simp [sliceTo]; omega
  rw [e2, Rd.bind_of_ok (Rd.lift_apply _ _), e3, Rd.bind_of_ok (Rd.lift_apply _ _)]

/-- C26: binary GetMulti against any server that answers with a list of hits (of any opcode but
no-op) and the reply to the final no-op returns exactly these items in order, with key, value and
flags, and leaves the connection right behind. -/
theorem C26_binary_getMulti (h1 h2 : ReqHdr) (keys : List Bytes) (hits : List BinHit) (h : ∀ b ∈ hits, b.Ok)
    (last rest : Bytes) (hl : BinHead last) (ho : opcodeOf last = 10) :
    (getMulti h1 h2 keys).rd (hits.flatMap BinHit.bytes ++ (last ++ rest))
      = (.ok (hits.map fun b => { key := b.key, value := b.value, flags := some b.flags }), rest) := by
  have key : ∀ (hits : List BinHit) n acc, (∀ b ∈ hits, b.Ok) → hits.length < n →
      multiLoop n acc (hits.flatMap BinHit.bytes ++ (last ++ rest))
        = (.ok (acc ++ hits.map fun b => { key := b.key, value := b.value, flags := some b.flags }), rest) := by
    intro hits
    induction hits with
    | nil =>
      intro n acc _ hn
      obtain ⟨n, rfl⟩ : ∃ m, n = m + 1 := ⟨n - 1, by simp at hn; omega⟩
      show (readHdr >>= _) _ = _
      rw [List.flatMap_nil, List.nil_append, Rd.bind_of_ok (readHdr_head last rest hl)]
      have ho' : (ResHdr.ofBytes last).opcode = opNoop := ho
      rw [if_pos ho']
      simp
    | cons b bs ih =>
      intro n acc hok hn
      obtain ⟨n, rfl⟩ : ∃ m, n = m + 1 := ⟨n - 1, by simp at hn; omega⟩
      rw [List.flatMap_cons, List.append_assoc, multiLoop_hit n acc b (hok b (by simp)),
        ih n _ (fun c hc => hok c (by simp [hc])) (by simp at hn; omega)]
      simp
  have hlen : hits.length ≤ (hits.flatMap BinHit.bytes).length := by
    clear key
    induction hits with
    | nil => simp
    | cons b bs ih =>
      have h24 : b.head.length = 24 := (h b (by simp)).head.1
      have := ih (fun c hc => h c (by simp [hc]))
      simp only [List.flatMap_cons, List.length_append, List.length_cons, BinHit.bytes]
      omega
  have := key hits _ [] h (show hits.length < (hits.flatMap BinHit.bytes ++ (last ++ rest)).length + 1 by
    simp only [List.length_append]; omega)
  exact this

/-- A concrete reply of memcached: GetKQ hit (opcode 13) for key "k" with flags 7 and value "v", then
the no-op reply. -/
example : ∃ b : BinHit, b.Ok ∧ opcodeOf b.head = 13 ∧ b.key = b!"k" ∧ b.flags = [0, 0, 0, 7] ∧ b.value = b!"v" :=
  ⟨⟨rawRes 13 1 4 0 0 6 0 1, [0, 0, 0, 7], b!"k", b!"v"⟩, ⟨⟨rfl, rfl⟩, by decide, by decide, by decide, by decide, by decide, by decide⟩,
    by decide, rfl, rfl, rfl⟩

example : BinHead (rawRes 10 0 0 0 0 0 0 0) ∧ opcodeOf (rawRes 10 0 0 0 0 0 0 0) = 10 := ⟨⟨rfl, rfl⟩, rfl⟩

end Props
end Verif
