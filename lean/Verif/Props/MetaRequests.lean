import Verif.Props.TextRequests
/-!
C12: the requests of the meta client as this module's server reads them.
-/

namespace Verif
namespace Props
open Srv Spec

/-- C12: `Get(key)` arrives as a meta get of the key that asks for the value (the server looks
at the first flag word, `v`, only). -/
theorem C12_get (key : Bytes) (hk : Plain key) :
    Arrives .ascii (Meta.get key)
      { opcode := opGet, key := key,
        getOpt := some { metaCmd := true, requestFlag := b!"v", value := true } } := by
  refine ⟨_, rfl, fun q hq rest => readRequest_ascii _ _ (by decide) q hq ?_⟩
  have := readAscii_words [b!"mg", key, b!"v", b!"f", b!"c", b!"t"] rest (by simp)
    (by
      simp only [List.forall_mem_cons]
      exact ⟨by decide, hk, by decide, by decide, by decide, by decide, by simp⟩)
  simpa [joinSp, asciiRequest, readMg, mgFlag] using this

/-- What a meta `Set` can transmit to this server: a plain key, no flags at all or at least
four flag bytes of which the first four, as a number, are below 2^31, an expiration that fits
32 bits, a cas token of 64 bits and a value of less than 4 GiB (any bytes). -/
structure MetaItem (item : Item) : Prop where
  key : Plain item.key
  flags : ∀ f, item.flags = some f → 4 ≤ f.length ∧ getBE (f.take 4) < 2 ^ 31
  expiration : InRange 32 item.expiration
  cas : item.cas < 2 ^ 64
  value : item.value.length < 2 ^ 32

/-- The request a meta `Set` arrives as: key, value, expiration, cas token (if not zero) and
flags as a number. -/
def metaSetReq (item : Item) : Request :=
  { opcode := opSet, key := item.key, value := item.value,
    setOpt := some
      { metaCmd := true
        cas := decide (0 < item.cas)
        casValue := item.cas
        flag := match item.flags with
          | some f => (getBE (f.take 4) : Int)
          | none => 0
        size := item.value.length
        expiration := item.expiration } }

theorem le_maxAlloc' {n : Nat} (h : n < 2 ^ 32) : n + 2 ≤ maxAlloc := by
  have : maxAlloc = 281474976710656 := by unfold maxAlloc; decide
  rw [this]
  have : (2 : Nat) ^ 32 = 4294967296 := by decide
  omega

/-- Words of the request line of a meta Set. -/
def msWords (item : Item) : List Bytes :=
  [b!"ms", item.key, natDec item.value.length, b!"T" ++ intDec item.expiration]
    ++ (if 0 < item.cas then [b!"C" ++ natDec item.cas] else [])
    ++ (match item.flags with
        | some f => [b!"F" ++ natDec (getBE (f.take 4))]
        | none => [])

theorem msToken_T (o : SetOpt) (e : Int) (h : InRange 32 e) :
    msToken o (84 :: intDec e) = .ok { o with expiration := e } := by
  simp [msToken, parseInt_intDec e 32 h, numRes]
theorem msToken_C (o : SetOpt) (c : Nat) (h : c < 2 ^ 64) :
    msToken o (67 :: natDec c) = .ok { o with cas := true, casValue := c } := by
  simp [msToken, parseUint_natDec c 64 h, numRes]
theorem msToken_F (o : SetOpt) (c : Nat) (h : c < 2 ^ 31) :
    msToken o (70 :: natDec c) = .ok { o with flag := (c : Int) } := by
  simp [msToken, parseInt_natDec c 32 h, numRes]

theorem plain_append {a b : Bytes} (ha : Plain a) (hb : Plain b) : Plain (a ++ b) :=
  ⟨by simp [ha.1, hb.1], by simp [ha.2, hb.2]⟩

theorem readMs_cons (ms key sz : Bytes) (tokens : List Bytes) :
    readMs (ms :: key :: sz :: tokens) = (do
      let v ← Rd.lift (numRes (parseUint sz 32))
      let opt ← Rd.lift (msTokens { metaCmd := true, size := (v : Int) } tokens)
      let buf ← readN (opt.size + 2)
      let val ← Rd.lift (sliceTo buf opt.size)
      pure { opcode := opSet, key := key, value := val, setOpt := some opt }) := rfl

theorem readMs_ok (key value rest : Bytes) (tokens : List Bytes) (opt : SetOpt)
    (hv : value.length < 2 ^ 32) (hs : opt.size = value.length)
    (ho : msTokens { metaCmd := true, size := (value.length : Int) } tokens = .ok opt) :
    readMs (b!"ms" :: key :: natDec value.length :: tokens) (value ++ 13 :: 10 :: rest)
      = (.ok { opcode := opSet, key := key, value := value, setOpt := some opt }, rest) := by
  rw [readMs_cons, parseUint_natDec _ 32 hv]
  refine (Rd.bind_of_ok (Rd.lift_apply _ _)).trans ?_
  rw [ho]
  refine (Rd.bind_of_ok (Rd.lift_apply _ _)).trans ?_
  have h4 : readN (opt.size + 2) (value ++ 13 :: 10 :: rest) = (.ok (value ++ [13, 10]), rest) := by
    have := readN_append ((value.length : Int) + 2) (value ++ [13, 10]) rest (by simp)
      (by have := le_maxAlloc' hv; simpa using this)
    rw [hs]; simpa using this
  refine (Rd.bind_of_ok h4).trans ?_
  rw [hs, sliceTo_append]
  rfl

/-- C12: `Set`, with or without cas token and flags. -/
theorem C12_set (item : Item) (h : MetaItem item) :
    Arrives .ascii (Meta.set item) (metaSetReq item) := by
  obtain ⟨hk, hf, he, hc, hv⟩ := h
  have hw : Meta.setWire item = .ok (joinSp (msWords item) ++ crlf ++ (item.value ++ crlf)) := by
    cases hfl : item.flags with
    | none =>
      by_cases hcas : 0 < item.cas <;> simp [Meta.setWire, msWords, hfl, hcas, joinSp]
    | some f =>
      have h4 := (hf f hfl).1
      by_cases hcas : 0 < item.cas <;> simp [Meta.setWire, msWords, hfl, hcas, joinSp, beUint, h4]
  refine ⟨_, hw, fun q hq rest => ?_⟩
  have hp : ∀ w ∈ msWords item, Plain w := by
    unfold msWords
    intro w hw
    simp only [List.mem_append, List.mem_cons, List.not_mem_nil, or_false] at hw
    rcases hw with ((rfl | rfl | rfl | rfl) | hw) | hw
    · decide
    · exact hk
    · exact natDec_plain _
    · exact plain_append (by decide) (intDec_plain _)
    · split at hw
      · simp only [List.mem_singleton] at hw; subst hw
        exact plain_append (by decide) (natDec_plain _)
      · simp at hw
    · split at hw
      · simp only [List.mem_singleton] at hw; subst hw
        exact plain_append (by decide) (natDec_plain _)
      · simp at hw
  have h1 := readAscii_words (msWords item) (item.value ++ 13 :: 10 :: rest)
    (by simp [msWords]) hp
  have h2 : asciiRequest (msWords item) (item.value ++ 13 :: 10 :: rest)
      = (.ok (metaSetReq item), rest) := by
    have e : msWords item = b!"ms" :: item.key :: natDec item.value.length ::
        ([b!"T" ++ intDec item.expiration]
          ++ (if 0 < item.cas then [b!"C" ++ natDec item.cas] else [])
          ++ (match item.flags with
              | some f => [b!"F" ++ natDec (getBE (f.take 4))]
              | none => [])) := by simp [msWords]
    rw [e]
    have ha : ∀ args, asciiRequest (b!"ms" :: args) = readMs (b!"ms" :: args) := fun _ => rfl
    rw [ha]
    refine readMs_ok item.key item.value rest _ _ hv ?_ ?_
    · rfl
    · cases hfl : item.flags with
      | none =>
        by_cases hcas : 0 < item.cas
        · simp [hcas, msTokens, msToken_T _ _ he, msToken_C _ _ hc]
        · have h0 : item.cas = 0 := by omega
          simp [h0, msTokens, msToken_T _ _ he]
      | some f =>
        have h5 := (hf f hfl).2
        by_cases hcas : 0 < item.cas
        · simp [hcas, msTokens, msToken_T _ _ he, msToken_C _ _ hc, msToken_F _ _ h5]
        · have h0 : item.cas = 0 := by omega
          simp [h0, msTokens, msToken_T _ _ he, msToken_F _ _ h5]
  rw [h2] at h1
  have hr : readRequest q (joinSp (msWords item) ++ 13 :: 10 :: (item.value ++ 13 :: 10 :: rest))
      = (.ok (.ascii, metaSetReq item), rest) := by
    have e : ∃ t, joinSp (msWords item) = 109 :: t := by
      unfold msWords; exact ⟨_, rfl⟩
    obtain ⟨t, ht⟩ := e
    rw [ht] at h1 ⊢
    exact readRequest_ascii _ _ (by decide) q hq h1
  simpa [crlf] using hr

/-- C12: `Delete`. -/
theorem C12_delete (key : Bytes) (hk : Plain key) :
    Arrives .ascii (Meta.delete key)
      { opcode := opDelete, key := key, delOpt := some { metaCmd := true } } := by
  refine ⟨_, rfl, fun q hq rest => readRequest_ascii _ _ (by decide) q hq ?_⟩
  have := readAscii_words [b!"md", key] rest (by simp)
    (by simp only [List.forall_mem_cons]; exact ⟨by decide, hk, by simp⟩)
  simpa [joinSp_words2, asciiRequest, readDelete, crlf] using this

/-- C12: `Add` (sent as a text command). -/
theorem C12_add (item : Item) (h : TextItem item) :
    Arrives .ascii (Meta.add item) (storeReq opAdd item) := C11_add item h

/-- C12: `Replace`. -/
theorem C12_replace (item : Item) (h : TextItem item) :
    Arrives .ascii (Meta.replace item) (storeReq opReplace item) := C11_replace item h

/-- C12: `Increment`. -/
theorem C12_increment (key : Bytes) (delta exp : Int) (hk : Plain key) (hd : InRange 32 delta) :
    Arrives .ascii (Meta.increment key delta exp)
      { opcode := opIncrement, key := key, delta := delta } := C11_increment key delta exp hk hd

/-- C12: `Decrement`. -/
theorem C12_decrement (key : Bytes) (delta exp : Int) (hk : Plain key) (hd : InRange 32 delta) :
    Arrives .ascii (Meta.decrement key delta exp)
      { opcode := opDecrement, key := key, delta := delta } := C11_decrement key delta exp hk hd

/-- C12: `Flush`. -/
theorem C12_flush : Arrives .ascii Meta.flush { opcode := opFlush } := C11_flush

/-- C12: `Version`. -/
theorem C12_version : Arrives .ascii Meta.version { opcode := opVersion } := C11_version

/-- The two meta requests this server does not understand.  `Touch` is an `md` with flags:
the server answers nothing and drops the connection, for every key and expiration. -/
theorem C12_touch_rejected (key : Bytes) (exp : Int) (hk : Plain key) :
    ∃ w, (Meta.touch key exp).wire = .ok w ∧
      ∀ rest, readRequest none (w ++ rest) = (.err (.msg b!"server: invalid request"), rest) := by
  refine ⟨_, rfl, fun rest => ?_⟩
  have h1 := readAscii_words [b!"md", key, b!"I", b!"T" ++ intDec exp] rest (by simp)
    (by
      simp only [List.forall_mem_cons]
      exact ⟨by decide, hk, by decide, plain_append (by decide) (intDec_plain _), by simp⟩)
  have h2 : asciiRequest [b!"md", key, b!"I", b!"T" ++ intDec exp] rest
      = (.err (.msg b!"server: invalid request"), rest) := rfl
  rw [h2] at h1
  have hd : protoOf none (b!"md " ++ key ++ b!" I T" ++ intDec exp ++ crlf ++ rest)
      = (.ok .ascii, b!"md " ++ key ++ b!" I T" ++ intDec exp ++ crlf ++ rest) := rfl
  unfold readRequest
  rw [Rd.bind_of_ok hd]
  refine Rd.bind_of_err ?_
  show readAscii _ = _
  rw [← h1]
  simp [joinSp, crlf]

/-- `GetMulti` ends its request with `mn`, which the server rejects: it closes the connection
after having answered the `mg`s. -/
theorem C12_getMulti_noop_rejected (rest : Bytes) :
    readRequest (some .ascii) (b!"mn\r\n" ++ rest) = (.err (.msg b!"server: invalid request"), rest) := rfl

example : MetaItem { sampleItem with cas := 7 } :=
  ⟨by decide, by intro f hf; cases hf; decide, by decide, by decide, by decide⟩

end Props
end Verif
