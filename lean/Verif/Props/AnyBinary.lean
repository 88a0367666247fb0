import Verif.Props.AnyText
/-!
C66: the binary requests of any client.  The server's reader accepts exactly the grammar of `Spec/Grammar.lean`.
-/

namespace Verif
namespace Props
open Srv Spec

/-! ### The switch -/

/-- The switch on the header's fields. -/
def binSwitch (op : UInt8) (k x b : Nat) : Rd Request :=
  if op = opGet then do
    let key ← readFull k
    pure { opcode := opGet, key := key }
  else if op = opGetKQ then do
    let key ← readFull k
    pure { opcode := opGet, key := key, getOpt := some { noReply := true, key := true } }
  else if op = opSet ∨ op = opAdd ∨ op = opReplace then do
    let extra ← readFull x
    let e ← Rd.lift (slice extra 4 8)
    let key ← readFull k
    let buf ← readN ((b : Int) - extra.length - k)
    let f ← Rd.lift (sliceTo extra 4)
    pure { opcode := op, key := key, value := buf, flags := some f,
           setOpt := some { expiration := getBE e } }
  else if op = opDelete then do
    let key ← readFull k
    pure { opcode := opDelete, key := key }
  else if op = opIncrement ∨ op = opDecrement then do
    let extra ← readFull x
    let d ← Rd.lift (sliceTo extra 8)
    let e ← Rd.lift (slice extra 16 20)
    let key ← readFull k
    pure { opcode := op, key := key, delta := toSigned 64 (getBE d),
           setOpt := some { expiration := getBE e } }
  else if op = opTouch then do
    let extra ← readFull x
    let e ← Rd.lift (sliceTo extra 4)
    let key ← readFull k
    pure { opcode := opTouch, key := key, setOpt := some { expiration := getBE e } }
  else if op = opNoop ∨ op = opVersion ∨ op = opFlush then
    pure { opcode := op }
  else Rd.fail errInvalidRequest

theorem binaryRequest_eq (h : Bytes) :
    binaryRequest h = binSwitch (h.getD 1 0) (getBE ((h.take 4).drop 2)) (h.getD 4 0).toNat
      (getBE ((h.take 12).drop 8)) := rfl

theorem full_ok {β : Type} {n : Nat} {f : Bytes → Rd β} {i r : Bytes} {x : β} :
    (readFull n >>= f) i = (.ok x, r) ↔ ∃ b r', i = b ++ r' ∧ b.length = n ∧ f b r' = (.ok x, r) :=
  full_iff (by simp)

/-- A key and nothing else. -/
theorem key_ok {k : Nat} {f : Bytes → Request} {i rest : Bytes} {req : Request} :
    (readFull k >>= fun key => pure (f key)) i = (.ok req, rest)
      ↔ ∃ key, i = key ++ rest ∧ key.length = k ∧ req = f key := by
  rw [full_ok]
  constructor
  · rintro ⟨key, r', rfl, hk, h⟩
    obtain ⟨rfl, rfl⟩ := pure_ok.1 h
    exact ⟨key, rfl, hk, rfl⟩
  · rintro ⟨key, rfl, hk, rfl⟩
    exact ⟨key, rest, rfl, hk, rfl⟩

theorem putBE_getBE' {b : Bytes} {n : Nat} (h : b.length = n) : putBE n (getBE b) = b := by
  subst h; exact putBE_getBE b

theorem getBE_4lt {b : Bytes} (h : b.length = 4) : getBE b < 2 ^ 32 := by
  have := getBE_lt b
  rw [h] at this
  exact this

theorem getBE_2lt {b : Bytes} (h : b.length = 2) : getBE b < 2 ^ 16 := by
  have := getBE_lt b
  rw [h] at this
  exact this

theorem toSigned_range (n : Nat) : InRange 64 (toSigned 64 n) := by
  unfold InRange toSigned
  have h1 : 2 ^ (64 - 1) = 9223372036854775808 := by decide
  have h2 : 2 ^ 64 = 18446744073709551616 := by decide
  rw [h1, h2]
  split <;> omega

theorem toSigned_emod {n : Nat} (h : n < 2 ^ 64) : (toSigned 64 n % 2 ^ 64).toNat = n := by
  unfold toSigned
  have h1 : 2 ^ (64 - 1) = 9223372036854775808 := by decide
  have h2 : 2 ^ 64 = 18446744073709551616 := by decide
  have h3 : (2 : Int) ^ 64 = 18446744073709551616 := by decide
  rw [h2] at h
  rw [h1, h2, h3]
  split <;> omega

theorem signed_emod {d : Int} (h : InRange 64 d) : toSigned 64 ((d % 2 ^ 64).toNat) = d := by
  have := toSigned_toUnsigned 64 (by omega) d h
  exact this

theorem store_fwd {op : UInt8} {k x b : Nat} {i rest : Bytes} {req : Request} (hop : op = 1 ∨ op = 2 ∨ op = 3)
    (h : (readFull x >>= fun extra => Rd.lift (slice extra 4 8) >>= fun e => readFull k >>= fun key =>
      readN ((b : Int) - extra.length - k) >>= fun buf => Rd.lift (sliceTo extra 4) >>= fun f =>
      pure { opcode := op, key := key, value := buf, flags := some f, setOpt := some { expiration := getBE e } }) i
      = (.ok req, rest)) : ∃ body, i = body ++ rest ∧ BinRequest op k x b body req := by
  obtain ⟨extra, r1, rfl, hx, h1⟩ := full_ok.1 h
  obtain ⟨e, he, h2⟩ := lift_ok_iff.1 h1
  obtain ⟨_, hx8, rfl⟩ := slice_ok.1 he
  obtain ⟨key, r2, rfl, rfl, h3⟩ := full_ok.1 h2
  obtain ⟨value, r3, rfl, hv, _, h4⟩ := n_ok_iff.1 h3
  obtain ⟨f, hf, h5⟩ := lift_ok_iff.1 h4
  obtain ⟨t, ht, hfl⟩ := sliceTo_ok.1 hf
  obtain ⟨rfl, rfl⟩ := pure_ok.1 h5
  have hfl' : f.length = 4 := by omega
  have hel : (t.take 4).length = 4 := by
    have : extra.length = f.length + t.length := by rw [ht]; simp
    rw [List.length_take]; omega
  have e1 : (extra.take 8).drop 4 = t.take 4 := by
    have : (8 : Nat) = f.length + 4 := by omega
    rw [ht, this, List.take_length_add_append, ← hfl', List.drop_left]
  have ee : extra = f ++ putBE 4 (getBE (t.take 4)) ++ t.drop 4 := by
    rw [putBE_getBE' hel, List.append_assoc, List.take_append_drop, ht]
  refine ⟨extra ++ key ++ value, by simp, ?_⟩
  rw [e1]
  have := BinRequest.store (op := op) (x := x) (b := b) (flags := f) (more := t.drop 4) (key := key) (value := value)
    (e := getBE (t.take 4)) hop hfl' (getBE_4lt hel) (by
      have : extra.length = f.length + t.length := by rw [ht]; simp
      simp; omega) (by omega)
  rw [← ee] at this
  exact this

theorem store_bwd {op : UInt8} {k x b : Nat} {flags more key value rest : Bytes} {e : Nat}
    (hk : key.length = k) (hf : flags.length = 4) (he : e < 2 ^ 32) (hx : 8 + more.length = x)
    (hb : b = x + key.length + value.length) (hb32 : b < 2 ^ 32) :
    (readFull x >>= fun extra => Rd.lift (slice extra 4 8) >>= fun e => readFull k >>= fun key =>
      readN ((b : Int) - extra.length - k) >>= fun buf => Rd.lift (sliceTo extra 4) >>= fun f =>
      pure { opcode := op, key := key, value := buf, flags := some f, setOpt := some { expiration := getBE e } })
      (flags ++ putBE 4 e ++ more ++ key ++ value ++ rest)
      = ((.ok { opcode := op, key := key, value := value, flags := some flags, setOpt := some { expiration := e } }, rest)
          : Res Request × Bytes) := by
  have hm : maxAlloc = 281474976710656 := by unfold maxAlloc; decide
  have hpl : (putBE 4 e).length = 4 := putBE_length 4 e
  refine full_ok.2 ⟨flags ++ putBE 4 e ++ more, key ++ value ++ rest, by simp, by simp [hpl, hf]; omega, ?_⟩
  refine lift_ok_iff.2 ⟨putBE 4 e, slice_ok.2 ⟨by omega, by simp [hpl, hf]; omega, ?_⟩, ?_⟩
  · have e8 : (8 : Nat) = (flags ++ putBE 4 e).length := by simp [hpl, hf]
    rw [e8, List.take_left, ← hf, List.drop_left]
  refine full_ok.2 ⟨key, value ++ rest, by simp, hk, ?_⟩
  refine n_ok_iff.2 ⟨value, rest, rfl, by simp [hpl, hf]; omega, by rw [hm]; omega, ?_⟩
  refine lift_ok_iff.2 ⟨flags, sliceTo_ok.2 ⟨putBE 4 e ++ more, by simp, by omega⟩, ?_⟩
  rw [getBE_putBE_lt 4 e he]
  rfl

theorem arith_fwd {op : UInt8} {k x b : Nat} {i rest : Bytes} {req : Request} (hop : op = 5 ∨ op = 6)
    (h : (readFull x >>= fun extra => Rd.lift (sliceTo extra 8) >>= fun d => Rd.lift (slice extra 16 20) >>= fun e =>
      readFull k >>= fun key =>
      pure { opcode := op, key := key, delta := toSigned 64 (getBE d), setOpt := some { expiration := getBE e } }) i
      = (.ok req, rest)) : ∃ body, i = body ++ rest ∧ BinRequest op k x b body req := by
  obtain ⟨extra, r1, rfl, hx, h1⟩ := full_ok.1 h
  obtain ⟨d, hd, h2⟩ := lift_ok_iff.1 h1
  obtain ⟨t, ht, hdl⟩ := sliceTo_ok.1 hd
  obtain ⟨e, he, h3⟩ := lift_ok_iff.1 h2
  obtain ⟨_, hx20, rfl⟩ := slice_ok.1 he
  obtain ⟨key, rfl, rfl, rfl⟩ := key_ok.1 h3
  have hdl' : d.length = 8 := by omega
  have hl : extra.length = d.length + t.length := by rw [ht]; simp
  have h8 : (t.take 8).length = 8 := by rw [List.length_take]; omega
  have h4 : ((t.drop 8).take 4).length = 4 := by rw [List.length_take, List.length_drop]; omega
  have e1 : (extra.take 20).drop 16 = (t.drop 8).take 4 := by
    have : (20 : Nat) = d.length + 12 := by omega
    rw [ht, this, List.take_length_add_append]
    have : (16 : Nat) = d.length + 8 := by omega
    rw [this, List.drop_length_add_append]
    rw [show (12 : Nat) = 8 + 4 from rfl, List.take_add, List.drop_append_of_le_length (by omega)]
    rw [List.drop_eq_nil_of_le (by omega)]
    rfl
  have hd64 : getBE d < 2 ^ 64 := by have := getBE_lt d; rw [hdl'] at this; exact this
  have ee : extra = putBE 8 (toSigned 64 (getBE d) % 2 ^ 64).toNat ++ t.take 8 ++ putBE 4 (getBE ((t.drop 8).take 4))
      ++ (t.drop 8).drop 4 := by
    rw [toSigned_emod hd64, putBE_getBE' hdl', putBE_getBE' h4, List.append_assoc, List.append_assoc,
      List.take_append_drop, List.take_append_drop, ht]
  refine ⟨extra ++ key, by simp, ?_⟩
  rw [e1]
  have := BinRequest.arith (op := op) (x := x) (b := b) (initial := t.take 8) (more := (t.drop 8).drop 4) (key := key)
    (d := toSigned 64 (getBE d)) (e := getBE ((t.drop 8).take 4)) hop (toSigned_range _) h8 (getBE_4lt h4) (by
      simp; omega)
  rw [← ee] at this
  exact this

theorem arith_bwd {op : UInt8} {x : Nat} {initial more key rest : Bytes} {d : Int} {e : Nat} (hd : InRange 64 d)
    (hi : initial.length = 8) (he : e < 2 ^ 32) (hx : 20 + more.length = x) :
    (readFull x >>= fun extra => Rd.lift (sliceTo extra 8) >>= fun d => Rd.lift (slice extra 16 20) >>= fun e =>
      readFull key.length >>= fun key =>
      pure { opcode := op, key := key, delta := toSigned 64 (getBE d), setOpt := some { expiration := getBE e } })
      (putBE 8 (d % 2 ^ 64).toNat ++ initial ++ putBE 4 e ++ more ++ key ++ rest)
      = ((.ok { opcode := op, key := key, delta := d, setOpt := some { expiration := e } }, rest)
          : Res Request × Bytes) := by
  have hpl : (putBE 4 e).length = 4 := putBE_length 4 e
  have hpd : (putBE 8 (d % 2 ^ 64).toNat).length = 8 := putBE_length 8 _
  refine full_ok.2 ⟨putBE 8 (d % 2 ^ 64).toNat ++ initial ++ putBE 4 e ++ more, key ++ rest, by simp,
    by simp only [List.length_append, hpl, hpd, hi]; omega, ?_⟩
  refine lift_ok_iff.2 ⟨putBE 8 (d % 2 ^ 64).toNat,
    sliceTo_ok.2 ⟨initial ++ putBE 4 e ++ more, by simp only [List.append_assoc], by rw [hpd]; rfl⟩, ?_⟩
  refine lift_ok_iff.2 ⟨putBE 4 e, slice_ok.2 ⟨by omega, by simp only [List.length_append, hpl, hpd, hi]; omega, ?_⟩, ?_⟩
  · have e20 : (20 : Nat) = (putBE 8 (d % 2 ^ 64).toNat ++ initial ++ putBE 4 e).length := by
      simp only [List.length_append, hpl, hpd, hi]
    have e16 : (16 : Nat) = (putBE 8 (d % 2 ^ 64).toNat ++ initial).length := by
      simp only [List.length_append, hpd, hi]
    rw [e20, List.take_left, e16, List.drop_left]
  refine key_ok.2 ⟨key, rfl, rfl, ?_⟩
  have hlt : (d % 2 ^ 64).toNat < 256 ^ 8 := by
    have := toUnsigned_lt 64 d
    exact this
  rw [getBE_putBE_lt 4 e he, getBE_putBE_lt 8 _ hlt, signed_emod hd]

theorem touch_fwd {k x b : Nat} {i rest : Bytes} {req : Request}
    (h : (readFull x >>= fun extra => Rd.lift (sliceTo extra 4) >>= fun e => readFull k >>= fun key =>
      pure { opcode := opTouch, key := key, setOpt := some { expiration := getBE e } }) i
      = (.ok req, rest)) : ∃ body, i = body ++ rest ∧ BinRequest 28 k x b body req := by
  obtain ⟨extra, r1, rfl, hx, h1⟩ := full_ok.1 h
  obtain ⟨e, he, h2⟩ := lift_ok_iff.1 h1
  obtain ⟨t, ht, hel⟩ := sliceTo_ok.1 he
  obtain ⟨key, rfl, rfl, rfl⟩ := key_ok.1 h2
  have h4 : e.length = 4 := by omega
  have hl : extra.length = e.length + t.length := by rw [ht]; simp
  refine ⟨extra ++ key, by simp, ?_⟩
  have := BinRequest.touch (x := x) (b := b) (more := t) (key := key) (e := getBE e) (getBE_4lt h4) (by omega)
  rw [putBE_getBE' h4, ← ht] at this
  exact this

theorem touch_bwd {x : Nat} {more key rest : Bytes} {e : Nat} (he : e < 2 ^ 32) (hx : 4 + more.length = x) :
    (readFull x >>= fun extra => Rd.lift (sliceTo extra 4) >>= fun e => readFull key.length >>= fun key =>
      pure { opcode := opTouch, key := key, setOpt := some { expiration := getBE e } })
      (putBE 4 e ++ more ++ key ++ rest)
      = ((.ok { opcode := opTouch, key := key, setOpt := some { expiration := e } }, rest) : Res Request × Bytes) := by
  have hpl : (putBE 4 e).length = 4 := putBE_length 4 e
  refine full_ok.2 ⟨putBE 4 e ++ more, key ++ rest, by simp, by simp only [List.length_append, hpl]; omega, ?_⟩
  refine lift_ok_iff.2 ⟨putBE 4 e, sliceTo_ok.2 ⟨more, rfl, by rw [hpl]; rfl⟩, ?_⟩
  refine key_ok.2 ⟨key, rfl, rfl, ?_⟩
  rw [getBE_putBE_lt 4 e he]

theorem binSwitch_iff {op : UInt8} {k x b : Nat} {i rest : Bytes} {req : Request} (hb : b < 2 ^ 32) :
    binSwitch op k x b i = (.ok req, rest) ↔ ∃ body, i = body ++ rest ∧ BinRequest op k x b body req := by
  constructor
  · intro h
    unfold binSwitch at h
    by_cases h0 : op = opGet
    · rw [if_pos h0] at h
      obtain ⟨key, rfl, rfl, rfl⟩ := key_ok.1 h
      subst h0
      exact ⟨key, rfl, .get⟩
    rw [if_neg h0] at h
    by_cases h1 : op = opGetKQ
    · rw [if_pos h1] at h
      obtain ⟨key, rfl, rfl, rfl⟩ := key_ok.1 h
      subst h1
      exact ⟨key, rfl, .getKQ⟩
    rw [if_neg h1] at h
    by_cases h2 : op = opSet ∨ op = opAdd ∨ op = opReplace
    · rw [if_pos h2] at h
      exact store_fwd h2 h
    rw [if_neg h2] at h
    by_cases h3 : op = opDelete
    · rw [if_pos h3] at h
      obtain ⟨key, rfl, rfl, rfl⟩ := key_ok.1 h
      subst h3
      exact ⟨key, rfl, .delete⟩
    rw [if_neg h3] at h
    by_cases h4 : op = opIncrement ∨ op = opDecrement
    · rw [if_pos h4] at h
      exact arith_fwd h4 h
    rw [if_neg h4] at h
    by_cases h5 : op = opTouch
    · rw [if_pos h5] at h
      subst h5
      exact touch_fwd h
    rw [if_neg h5] at h
    by_cases h6 : op = opNoop ∨ op = opVersion ∨ op = opFlush
    · rw [if_pos h6] at h
      obtain ⟨rfl, rfl⟩ := pure_ok.1 h
      refine ⟨[], rfl, .bare ?_⟩
      rcases h6 with h | h | h
      · exact .inr (.inl h)
      · exact .inr (.inr h)
      · exact .inl h
    rw [if_neg h6] at h
    exact absurd h fail_ok
  · rintro ⟨body, rfl, h⟩
    unfold binSwitch
    cases h with
    | get =>
      rw [if_pos (show (0 : UInt8) = opGet by decide)]
      exact key_ok.2 ⟨body, rfl, rfl, rfl⟩
    | getKQ =>
      rw [if_neg (show ¬ (13 : UInt8) = opGet by decide), if_pos (show (13 : UInt8) = opGetKQ by decide)]
      exact key_ok.2 ⟨body, rfl, rfl, rfl⟩
    | store ho hf he hx hbl =>
      have n1 : ¬ op = opGet := by rcases ho with rfl | rfl | rfl <;> decide
      have n2 : ¬ op = opGetKQ := by rcases ho with rfl | rfl | rfl <;> decide
      rw [if_neg n1, if_neg n2, if_pos (show op = opSet ∨ op = opAdd ∨ op = opReplace from ho)]
      exact store_bwd rfl hf he hx hbl hb
    | delete =>
      rw [if_neg (show ¬ (4 : UInt8) = opGet by decide), if_neg (show ¬ (4 : UInt8) = opGetKQ by decide),
        if_neg (show ¬ ((4 : UInt8) = opSet ∨ (4 : UInt8) = opAdd ∨ (4 : UInt8) = opReplace) by decide),
        if_pos (show (4 : UInt8) = opDelete by decide)]
      exact key_ok.2 ⟨body, rfl, rfl, rfl⟩
    | arith ho hd hi he hx =>
      have n1 : ¬ op = opGet := by rcases ho with rfl | rfl <;> decide
      have n2 : ¬ op = opGetKQ := by rcases ho with rfl | rfl <;> decide
      have n3 : ¬ (op = opSet ∨ op = opAdd ∨ op = opReplace) := by rcases ho with rfl | rfl <;> decide
      have n4 : ¬ op = opDelete := by rcases ho with rfl | rfl <;> decide
      rw [if_neg n1, if_neg n2, if_neg n3, if_neg n4, if_pos (show op = opIncrement ∨ op = opDecrement from ho)]
      exact arith_bwd hd hi he hx
    | touch he hx =>
      rw [if_neg (show ¬ (28 : UInt8) = opGet by decide), if_neg (show ¬ (28 : UInt8) = opGetKQ by decide),
        if_neg (show ¬ ((28 : UInt8) = opSet ∨ (28 : UInt8) = opAdd ∨ (28 : UInt8) = opReplace) by decide),
        if_neg (show ¬ (28 : UInt8) = opDelete by decide),
        if_neg (show ¬ ((28 : UInt8) = opIncrement ∨ (28 : UInt8) = opDecrement) by decide),
        if_pos (show (28 : UInt8) = opTouch by decide)]
      exact touch_bwd he hx
    | bare ho =>
      have n1 : ¬ op = opGet := by rcases ho with rfl | rfl | rfl <;> decide
      have n2 : ¬ op = opGetKQ := by rcases ho with rfl | rfl | rfl <;> decide
      have n3 : ¬ (op = opSet ∨ op = opAdd ∨ op = opReplace) := by rcases ho with rfl | rfl | rfl <;> decide
      have n4 : ¬ op = opDelete := by rcases ho with rfl | rfl | rfl <;> decide
      have n5 : ¬ (op = opIncrement ∨ op = opDecrement) := by rcases ho with rfl | rfl | rfl <;> decide
      have n6 : ¬ op = opTouch := by rcases ho with rfl | rfl | rfl <;> decide
      have n7 : op = opNoop ∨ op = opVersion ∨ op = opFlush := by rcases ho with rfl | rfl | rfl <;> decide
      rw [if_neg n1, if_neg n2, if_neg n3, if_neg n4, if_neg n5, if_neg n6, if_pos n7]
      rfl

/-! ### The header -/

theorem binHeader_length (op : UInt8) (k : Nat) (x : UInt8) (u : Bytes) (b : Nat) (u' : Bytes) (hu : u.length = 3)
    (hu' : u'.length = 12) : (binHeader op k x u b u').length = 24 := by
  simp [binHeader, putBE_length, hu, hu']

theorem binHeader_fields (op : UInt8) (k : Nat) (x : UInt8) (u : Bytes) (b : Nat) (u' : Bytes) (hu : u.length = 3)
    (hk : k < 2 ^ 16) (hb : b < 2 ^ 32) :
    let h := binHeader op k x u b u'
    h.head? = some 0x80 ∧ h.getD 1 0 = op ∧ getBE ((h.take 4).drop 2) = k ∧ (h.getD 4 0) = x
      ∧ getBE ((h.take 12).drop 8) = b := by
  match u, hu with
  | [u1, u2, u3], _ =>
    have e1 : getBE (putBE 2 k) = k := getBE_putBE_lt 2 k hk
    have e2 : getBE (putBE 4 b) = b := getBE_putBE_lt 4 b hb
    generalize hp : putBE 2 k = p at e1
    generalize hq : putBE 4 b = q at e2
    have hpl : p.length = 2 := by rw [← hp]; exact putBE_length 2 k
    have hql : q.length = 4 := by rw [← hq]; exact putBE_length 4 b
    match p, hpl with
    | [p1, p2], _ =>
      match q, hql with
      | [q1, q2, q3, q4], _ =>
        simp only [binHeader, hp, hq]
        exact ⟨rfl, rfl, e1, rfl, e2⟩

theorem header_iff {h : Bytes} : h.length = 24 ∧ h.head? = some 0x80 ↔
    ∃ op k x u b u', h = binHeader op k x u b u' ∧ k < 2 ^ 16 ∧ u.length = 3 ∧ b < 2 ^ 32 ∧ u'.length = 12 := by
  constructor
  · rintro ⟨hl, hm⟩
    match h, hl with
    | [a0, a1, a2, a3, a4, a5, a6, a7, a8, a9, a10, a11, a12, a13, a14, a15, a16, a17, a18, a19, a20, a21, a22, a23], _ =>
      simp only [List.head?_cons, Option.some.injEq] at hm
      subst hm
      refine ⟨a1, getBE [a2, a3], a4, [a5, a6, a7], getBE [a8, a9, a10, a11],
        [a12, a13, a14, a15, a16, a17, a18, a19, a20, a21, a22, a23], ?_, getBE_2lt rfl, rfl,
        getBE_4lt rfl, rfl⟩
      unfold binHeader
      rw [putBE_getBE' (n := 2) (b := [a2, a3]) rfl, putBE_getBE' (n := 4) (b := [a8, a9, a10, a11]) rfl]
      rfl
  · rintro ⟨op, k, x, u, b, u', rfl, _, hu, _, hu'⟩
    exact ⟨binHeader_length _ _ _ _ _ _ hu hu', rfl⟩

theorem readBinary_iff {i rest : Bytes} {req : Request} :
    readBinary i = (.ok req, rest) ↔ ∃ m, i = m ++ rest ∧ IsBinary m req := by
  unfold readBinary IsBinary
  rw [full_ok]
  constructor
  · rintro ⟨h, r, rfl, hl, hr⟩
    by_cases hm : h.head? = some 0x80
    · rw [if_neg (by simpa using hm)] at hr
      obtain ⟨op, k, x, u, b, u', rfl, hk, hu, hb, hu'⟩ := header_iff.1 ⟨hl, hm⟩
      obtain ⟨_, e1, e2, e3, e4⟩ := binHeader_fields op k x u b u' hu hk hb
      rw [binaryRequest_eq, e1, e2, e3, e4] at hr
      obtain ⟨body, rfl, hbr⟩ := (binSwitch_iff hb).1 hr
      exact ⟨_, (List.append_assoc _ _ _).symm, op, k, x, u, b, u', body, rfl, hk, hu, hb, hu', hbr⟩
    · rw [if_pos hm] at hr
      exact absurd hr fail_ok
  · rintro ⟨m, rfl, op, k, x, u, b, u', body, rfl, hk, hu, hb, hu', hbr⟩
    refine ⟨_, body ++ rest, List.append_assoc _ _ _, binHeader_length op k x u b u' hu hu', ?_⟩
    obtain ⟨hm, e1, e2, e3, e4⟩ := binHeader_fields op k x u b u' hu hk hb
    rw [if_neg (by simpa using hm), binaryRequest_eq, e1, e2, e3, e4]
    exact (binSwitch_iff hb).2 ⟨body, rfl, hbr⟩

end Props
end Verif
