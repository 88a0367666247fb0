import Verif.Props.MetaHistory
import Verif.Props.BinaryReplies
import Verif.Props.Injection
/-!
C18: which flag values survive, by protocol and peer.
-/

namespace Verif
namespace Props
open Kv Spec Mc Srv

theorem parseInt_natDec_big (n : Nat) (h : 2 ^ 31 ≤ n) : parseInt (natDec n) 32 = none := by
  exact parseInt_natDec_ge n 32 h

theorem readRequest_err (b : UInt8) (i : Bytes) (hb : b ≠ 0x80) (q : Option Protocol)
    (hq : q = none ∨ q = some .ascii) {e : Err} {rest : Bytes} (h : readAscii (b :: i) = (.err e, rest)) :
    readRequest q (b :: i) = (.err e, rest) := by
  have h0 : protoOf q (b :: i) = (.ok .ascii, b :: i) := by
    rcases hq with rfl | rfl
    · simp [protoOf, detect, hb]
    · rfl
  unfold readRequest
  rw [Rd.bind_of_ok h0]
  exact Rd.bind_of_err h

/-- The server drops the connection instead of reading the request, and looks at none of the
bytes behind the command line. -/
def Dropped {α : Type} (c : Call α) (value : Bytes) : Prop :=
  ∃ w, c.wire = .ok w ∧ ∀ q : Option Protocol, q = none ∨ q = some .ascii →
    ∀ rest, readRequest q (w ++ rest) = (.err .num, value ++ crlf ++ rest)

theorem dropped_store (cmd : Bytes) (op : UInt8) (item : Item) (hk : Plain item.key)
    (hf : ¬ Flags31 (flagBytes item.flags)) (hc : Plain cmd)
    (hs : ∀ k a b c, asciiRequest [cmd, k, a, b, c] = readStore op [cmd, k, a, b, c]) (rest : Bytes) :
    readAscii (Text.storeWire cmd item ++ rest) = (.err .num, item.value ++ crlf ++ rest) := by
  have h1 := readAscii_words [cmd, item.key, natDec (Text.flagsNum item.flags),
    intDec item.expiration, natDec item.value.length] (item.value ++ crlf ++ rest) (by simp)
    (by
      simp only [List.forall_mem_cons]
      exact ⟨hc, hk, natDec_plain _, intDec_plain _, natDec_plain _, by simp⟩)
  have h2 : parseInt (natDec (Text.flagsNum item.flags)) 32 = none := by
    apply parseInt_natDec_big
    rw [flagsNum_eq]
    exact Nat.le_of_not_lt hf
  rw [hs] at h1
  have h3 : ∀ se sl i, readStore op [cmd, item.key, natDec (Text.flagsNum item.flags), se, sl] i = (.err .num, i) := by
    intro se sl i
    unfold readStore
    dsimp only
    rw [h2]
    rfl
  rw [h3, joinSp_words5] at h1
  rw [← show _ = Text.storeWire cmd item ++ rest from ?_]
  · exact h1
  · simp [Text.storeWire, crlf]

/-- C18, text to this module's server: flags below 2^31 arrive unchanged, for every flag value
... -/
theorem C18_text_below (item : Item) (f : Bytes) (hf : item.flags = some f) (h4 : f.length = 4)
    (hk : Plain item.key) (he : InRange 32 item.expiration) (hv : item.value.length < 2 ^ 31)
    (hc : item.cas = 0) (h : getBE f < 2 ^ 31) :
    ∃ req, Arrives .ascii (Text.set item) req ∧ req.flags = some f ∧ req.value = item.value ∧ req.key = item.key := by
  have e : flagBytes item.flags = f := by simp [flagBytes, hf, h4]
  exact ⟨_, C11_set item ⟨hk, by rw [e]; exact h, he, hv⟩ hc, by rw [← e]; rfl, rfl, rfl⟩

/-- C18: ... and from 2^31 on the server drops the connection (Set, Add and Replace, of a text
or a meta client). -/
theorem C18_text_above (item : Item) (f : Bytes) (hf : item.flags = some f) (h4 : f.length = 4)
    (hk : Plain item.key) (hc : item.cas = 0) (h : 2 ^ 31 ≤ getBE f) :
    Dropped (Text.set item) item.value ∧ Dropped (Text.add item) item.value
      ∧ Dropped (Text.replace item) item.value ∧ Dropped (Meta.add item) item.value
      ∧ Dropped (Meta.replace item) item.value := by
  have e : flagBytes item.flags = f := by simp [flagBytes, hf, h4]
  have hn : ¬ Flags31 (flagBytes item.flags) := by rw [e]; exact Nat.not_lt_of_le h
  have es : Text.setWire item = Text.storeWire b!"set" item := by
    simp [Text.setWire, Text.storeWire, hc]
  refine ⟨⟨_, rfl, fun q hq rest => ?_⟩, ⟨_, rfl, fun q hq rest => ?_⟩, ⟨_, rfl, fun q hq rest => ?_⟩,
    ⟨_, rfl, fun q hq rest => ?_⟩, ⟨_, rfl, fun q hq rest => ?_⟩⟩
  · rw [es]
    exact readRequest_err _ _ (by decide) q hq (dropped_store b!"set" opSet item hk hn (by decide) (fun _ _ _ _ => rfl) rest)
  · exact readRequest_err _ _ (by decide) q hq (dropped_store b!"add" opAdd item hk hn (by decide) (fun _ _ _ _ => rfl) rest)
  · exact readRequest_err _ _ (by decide) q hq (dropped_store b!"replace" opReplace item hk hn (by decide) (fun _ _ _ _ => rfl) rest)
  · exact readRequest_err _ _ (by decide) q hq (dropped_store b!"add" opAdd item hk hn (by decide) (fun _ _ _ _ => rfl) rest)
  · exact readRequest_err _ _ (by decide) q hq (dropped_store b!"replace" opReplace item hk hn (by decide) (fun _ _ _ _ => rfl) rest)

/-- C18, meta Set to this module's server: the flags number arrives below 2^31 ... -/
theorem C18_meta_below (item : Item) (f : Bytes) (hf : item.flags = some f) (h4 : f.length = 4)
    (hk : Plain item.key) (he : InRange 32 item.expiration) (hv : item.value.length < 2 ^ 31)
    (hc : item.cas < 2 ^ 64) (h : getBE f < 2 ^ 31) :
    ∃ req o, Arrives .ascii (Meta.set item) req ∧ req.setOpt = some o ∧ o.flag = (getBE f : Int) := by
  have ht : f.take 4 = f := List.take_of_length_le (by omega)
  refine ⟨_, _, C12_set item ⟨hk, ?_, he, hc, Nat.lt_trans hv (by decide)⟩, rfl, ?_⟩
  · intro g hg
    rw [hf] at hg
    cases hg
    exact ⟨by omega, by rw [ht]; exact h⟩
  · simp [hf, ht]

/-- C18: ... and from 2^31 on the server drops the connection. -/
theorem C18_meta_above (item : Item) (f : Bytes) (hf : item.flags = some f) (h4 : f.length = 4)
    (hk : Plain item.key) (he : InRange 32 item.expiration) (hv : item.value.length < 2 ^ 31)
    (hc : item.cas < 2 ^ 64) (h : 2 ^ 31 ≤ getBE f) : Dropped (Meta.set item) item.value := by
  have ht : f.take 4 = f := List.take_of_length_le (by omega)
  have hw : Meta.setWire item = .ok (joinSp (msWords item) ++ crlf ++ (item.value ++ crlf)) := by
    have h4' : 4 ≤ f.length := by omega
    by_cases hcas : 0 < item.cas <;> simp [Meta.setWire, msWords, hf, hcas, joinSp, beUint, h4']
  refine ⟨_, hw, fun q hq rest => ?_⟩
  have hp : ∀ w ∈ msWords item, Plain w := by
    unfold msWords
    intro w hw
    simp only [List.mem_append, List.mem_cons, List.not_mem_nil, or_false] at hw
    rcases hw with ((rfl | rfl | rfl | rfl) | hw) | hw
    · decide
    · exact hk
    · exact natDec_plain _
    · exact plain_append (by decide) (intDec_plain _)
    · split at hw
      · simp only [List.mem_singleton] at hw; subst hw
        exact plain_append (by decide) (natDec_plain _)
      · simp at hw
    · split at hw
      · simp only [List.mem_singleton] at hw; subst hw
        exact plain_append (by decide) (natDec_plain _)
      · simp at hw
  have h1 := readAscii_words (msWords item) (item.value ++ crlf ++ rest) (by simp [msWords]) hp
  have hbig := parseInt_natDec_big (getBE f) h
  have hF : ∀ o, msToken o (70 :: natDec (getBE f)) = .err .num := by
    intro o; simp [msToken, hbig, numRes]
  have h2 : asciiRequest (msWords item) (item.value ++ crlf ++ rest) = (.err .num, item.value ++ crlf ++ rest) := by
    have e : msWords item = b!"ms" :: item.key :: natDec item.value.length ::
        ([b!"T" ++ intDec item.expiration]
          ++ (if 0 < item.cas then [b!"C" ++ natDec item.cas] else [])
          ++ [b!"F" ++ natDec (getBE f)]) := by simp [msWords, hf, ht]
    rw [e]
    have ha : ∀ args, asciiRequest (b!"ms" :: args) = readMs (b!"ms" :: args) := fun _ => rfl
    rw [ha, readMs_cons, parseUint_natDec _ 32 (Nat.lt_trans hv (by decide))]
    refine (Rd.bind_of_ok (Rd.lift_apply _ _)).trans ?_
    have ho : msTokens { metaCmd := true, size := (item.value.length : Int) } ([b!"T" ++ intDec item.expiration]
          ++ (if 0 < item.cas then [b!"C" ++ natDec item.cas] else []) ++ [b!"F" ++ natDec (getBE f)]) = .err .num := by
      by_cases hcas : 0 < item.cas
      · simp [hcas, msTokens, msToken_T _ _ he, msToken_C _ _ hc, hF]
      · simp [hcas, msTokens, msToken_T _ _ he, hF]
    rw [ho]
    rfl
  rw [h2] at h1
  have e : ∃ t, joinSp (msWords item) = 109 :: t := by
    unfold msWords; exact ⟨_, rfl⟩
  obtain ⟨t, htl⟩ := e
  have e2 : joinSp (msWords item) ++ crlf ++ (item.value ++ crlf) ++ rest
      = joinSp (msWords item) ++ 13 :: 10 :: (item.value ++ crlf ++ rest) := by simp [crlf]
  rw [e2]
  rw [htl] at h1 ⊢
  exact readRequest_err _ _ (by decide) q hq h1

/-- C18, binary: all 2^32 flag values arrive, and all are returned. -/
theorem C18_binary (h1 h2 : Bin.ReqHdr) (item : Item) (f : Bytes) (hf : item.flags = some f) (h4 : f.length = 4)
    (hk : item.key.length < 60000) (hv : item.value.length < 2 ^ 31) :
    (∃ req, Arrives .binary (Bin.set h1 item) req ∧ req.flags = some f)
      ∧ ∃ it, Answers .binary { opcode := opGet, key := item.key } [{ flags := f, value := item.value }]
          (Bin.get h2 item.key) (.ok it) ∧ it.flags = some f ∧ it.value = item.value := by
  constructor
  · refine ⟨_, C10_set h1 item ⟨by omega, ?_, by omega⟩, ?_⟩
    · intro g hg; rw [hf] at hg; cases hg; omega
    · simp [binStoreReq, binFlags, hf, List.take_of_length_le (show f.length ≤ 4 by omega)]
  · exact ⟨_, C15_get h2 item.key { flags := f, value := item.value } ⟨by simp; omega, by simp; omega, by simp; omega⟩, rfl, rfl⟩

/-- C18, text: all 2^32 flag values are returned by a Get from this module's server ... -/
theorem C18_text_read (name key v f : Bytes) (hk : TextKey key) (hl : key.length ≤ 4000) (h4 : f.length = 4)
    (hv : v.length + 2 ≤ maxAlloc) :
    ∃ it, Answers .ascii { opcode := opGet, keys := some [key] } [{ key := key, flags := f, value := v }]
        (Text.get name key) (.ok it) ∧ it.flags = some f := by
  have hne : f ≠ [] := by rintro rfl; simp at h4
  refine ⟨_, C13_get name key { key := key, flags := f, value := v } ⟨hk, hl, .inr h4, hv⟩, ?_⟩
  simp [seenFlags, hne]

/-- C18: ... while a meta Get never gets flags from it. -/
theorem C18_meta_read (key v f : Bytes) (h4 : f.length = 4) (hv : v.length < 2 ^ 31) :
    ∃ it, Answers .ascii (metaGetReq key) [{ key := key, flags := f, value := v }] (Meta.get key) (.ok it)
      ∧ it.flags = none :=
  ⟨_, C14_get key { key := key, flags := f, value := v } (.inr (by simp; omega)) hv, rfl⟩

/-! ### Towards memcached -/

/-- C18: towards memcached a text client gets back every 32-bit flag value it has set. -/
theorem C18_memcached_text (name : Bytes) (s : Store) (hs : GoodStore s) (item : Item) (hi : GoodItem item)
    (hc : item.cas = 0) (he : item.expiration = 0) (f : Bytes) (hf : item.flags = some f) (h4 : f.length = 4)
    (hcas : s.nextCas + 1 < 2 ^ 63) :
    ∃ s' it, exchange (textCall name (.set item)) s = some (.ok .done, s')
      ∧ exchange (textCall name (.get item.key)) s' = some (.ok (.item it), s') ∧ it.flags = some f
      ∧ it.value = item.value := by
  have e1 := C52_text_call name (.set item) hi s hs
  have hflag : putBE 4 (flagsOf item) = f := by
    have e : flagBytes item.flags = f := by simp [flagBytes, hf, h4]
    have := putBE_getBE f
    rw [h4] at this
    rw [flagsOf, e]; exact this
  have hn : ¬ (0 < item.cas) := by omega
  have e2 : textApi name s (.set item) = (.ok .done, s.put item.key item.value (flagsOf item) none) := by
    simp [textApi, Store.store, hn, he, expiryOf]
  rw [e2] at e1
  have hgood : GoodStore (s.put item.key item.value (flagsOf item) none) := by
    refine ⟨hcas, ?_⟩
    intro k e hk
    simp only [Store.put, Store.write] at hk
    split at hk
    · cases hk
      exact ⟨flagsOf_lt item, Nat.lt_succ_self _, hi.value, by simp⟩
    · have := hs.entry k e hk
      exact ⟨this.1, Nat.lt_succ_of_lt this.2.1, this.2.2⟩
  have e3 := C52_text_call name (.get item.key) hi.key _ hgood
  have hfind : (s.put item.key item.value (flagsOf item) none).find item.key
      = some ⟨item.value, flagsOf item, none, s.nextCas⟩ := by
    simp [Store.find, Store.put, Store.write, Entry.live]
  have e4 : textApi name (s.put item.key item.value (flagsOf item) none) (.get item.key)
      = (.ok (.item (textItem name item.key ⟨item.value, flagsOf item, none, s.nextCas⟩ s.nextCas)),
          s.put item.key item.value (flagsOf item) none) := by
    simp only [textApi, hfind]
  exact ⟨_, _, e1, e3.trans (congrArg some e4), congrArg some hflag, rfl⟩

theorem hdrScan_big (size n : Nat) (hs : size < 2 ^ 31) (hn : 2 ^ 31 ≤ n) (r : Bytes) :
    Meta.hdrScan {} (natDec size ++ (b!" f" ++ natDec n ++ 32 :: r)) = .err .num := by
  rw [Meta.hdrScan_run {} (natDec size) _ (by decide) (natDec_tok size)]
  have hstep : Meta.hdrStep { num := natDec size, tok := natDec size } 32
      = .ok { state := 2, size := (size : Int), num := natDec size ++ [32], tok := natDec size ++ [32] } := by
    simp only [Meta.hdrStep, if_true, parseInt_natDec size 32 hs (by omega), numRes]
    rfl
  have e : b!" f" ++ natDec n ++ 32 :: r = 32 :: (102 :: natDec n ++ 32 :: r) := by simp
  rw [e, Meta.hdrScan, show ({ ({} : Meta.HdrState) with num := ({} : Meta.HdrState).num ++ natDec size, tok := ({} : Meta.HdrState).tok ++ natDec size } : Meta.HdrState) = { num := natDec size, tok := natDec size } from rfl, hstep, Res.bind_ok]
  obtain ⟨num, hn'⟩ := Meta.hdrScan_tok
    { state := 2, size := (size : Int), num := natDec size ++ [32], tok := natDec size ++ [32] } rfl (102, natDec n)
    ⟨by simp, natDec_tok n⟩ (32 :: r)
  rw [hn', Meta.hdrScan]
  have : Meta.hdrStep { state := 3, flagName := 102, size := (size : Int), num := num, tok := natDec n } 32 = .err .num := by
    simp [Meta.hdrStep, Meta.readGetFlagToken, parseInt_natDec_big n hn, numRes]
  rw [show ({ ({ state := 2, size := (size : Int), num := natDec size ++ [32], tok := natDec size ++ [32] } : Meta.HdrState)
    with state := 3, flagName := 102, num := num, tok := natDec n } : Meta.HdrState)
    = { state := 3, flagName := 102, size := (size : Int), num := num, tok := natDec n } from rfl, this]
  rfl

/-- C18: towards memcached a meta client cannot read an item whose flags are 2^31 or more: the
Get fails, for every such item, and leaves the value unread on the connection, to be taken for
the reply to the next call. -/
theorem C18_memcached_meta (s : Store) (k : Bytes) (e : Entry) (hf : s.find k = some e) (hs : GoodStore s)
    (hbig : 2 ^ 31 ≤ e.flags) :
    (Meta.get k).rd (exec s (.mg k [b!"v", b!"f", b!"c", b!"t"])).1 = (.err .num, e.value ++ crlf) := by
  obtain ⟨h1, h2, h3, h4⟩ := hs.entry k e (find_data hf)
  have hr := lifetime_range hs hf
  have h31 := maxValue31 h3
  have hl0 := natDec_length64 e.value.length (Nat.lt_trans h31 (by decide))
  have hl1 := natDec_length64 e.flags (Nat.lt_trans h1 (by decide))
  have hl2 := natDec_length64 e.cas (cas64 hs (find_data hf))
  have hl3 := intDec_length64 _ (inRange_widen hr)
  have hx : (exec s (.mg k [b!"v", b!"f", b!"c", b!"t"])).1
      = (b!"VA " ++ (natDec e.value.length ++ (b!" f" ++ natDec e.flags ++ 32 :: (99 :: natDec e.cas ++ b!" t" ++ intDec (lifetime s.now e) ++ [13]))))
        ++ 10 :: (e.value ++ crlf) := by
    rw [← ttl_eq]
    simp [exec, hf, mgTok, crlf]
  rw [hx]
  generalize hL : natDec e.value.length ++ (b!" f" ++ natDec e.flags ++ 32 :: (99 :: natDec e.cas ++ b!" t" ++ intDec (lifetime s.now e) ++ [13])) = L
  have hL10 : (10 : UInt8) ∉ L := by
    rw [← hL]; simp [natDec_no10, intDec_no10]
  have hLl : L.length ≤ 4000 := by
    rw [← hL]
    simp only [List.length_append, List.length_cons, List.length_nil]
    omega
  have hrd := readSlice_line (b!"VA " ++ L) (e.value ++ crlf) (by simp [hL10]) (by simp; omega)
  show (Meta.parseGetResponse >>= _) _ = _
  have hp : Meta.parseGetResponse (b!"VA " ++ L ++ 10 :: (e.value ++ crlf)) = (.err .num, e.value ++ crlf) := by
    unfold Meta.parseGetResponse
    rw [Rd.bind_of_ok hrd]
    have n1 : b!"VA " ++ L ++ [10] ≠ Meta.msgEnd := by simp [Meta.msgEnd]
    have n2 : b!"VA " ++ L ++ [10] ≠ Meta.msgNoop := by simp [Meta.msgNoop]
    have n3 : hasPrefix (b!"VA " ++ L ++ [10]) b!"VA" = true := by
      rw [hasPrefix_iff]; exact ⟨32 :: L ++ [10], by simp⟩
    rw [if_neg n1, if_neg n2, if_neg (by rw [n3]; simp)]
    have hsf : sliceFrom (b!"VA " ++ L ++ [10]) 3 = .ok (L ++ [10]) := by
      simp [sliceFrom]
    have hsc : Meta.hdrScan {} (L ++ [10]) = .err .num := by
      rw [← hL]
      have := hdrScan_big e.value.length e.flags h31 hbig (99 :: natDec e.cas ++ b!" t" ++ intDec (lifetime s.now e) ++ [13] ++ [10])
      simpa using this
    rw [hsf, Rd.bind_of_ok (Rd.lift_apply _ _), hsc]
    rfl
  rw [Rd.bind_of_err hp]

example : ∃ item : Item, item.flags = some [0x80, 0, 0, 0] ∧ Plain item.key ∧ item.cas = 0
    ∧ 2 ^ 31 ≤ getBE [0x80, 0, 0, 0] :=
  ⟨{ key := b!"k", flags := some [0x80, 0, 0, 0] }, rfl, by decide, rfl, by decide⟩

end Props
end Verif
