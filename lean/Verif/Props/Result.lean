import Verif.Lemmas.ResultReaders
/-!
C74: what an operation returns belongs to the caller.
-/

namespace Verif
namespace Mem
open Props Spec

theorem sound_ok {c : MSock} (h : Sound c) : Ok c.arr c.hdr c :=
  ⟨rfl, rfl, h.ne, h.arr, h.hdr, h.buf, h.hbuf, h.rw, h.w⟩

theorem ok_sound {A H : Nat} {c : MSock} (h : Ok A H c) : Sound c := by
  have ha := h.arr
  have hh := h.hdr
  subst ha; subst hh
  exact ⟨h.ne, h.la, h.lh, h.len, h.lenH, h.rw, h.w⟩

/-- The items of a result as they should be. -/
def GivesOut (A H N : Nat) (Sh : Memory → MItem → Prop) (o : Out) (out : MOut) (m : Memory) : Prop :=
  seen m out = o ∧ Fresh N m (itemsOf out) ∧ Distinct (itemsOf out) ∧ (∀ it ∈ itemsOf out, Sh m it)
    ∧ ∀ it ∈ itemsOf out, ∀ x ∈ arrays it, x ≠ A ∧ x ≠ H

theorem msim_map {α β γ δ : Type} {A H : Nat} {P : Memory → Prop} {x : Crd α} {y : Mrd β} {R : α → β → Memory → Prop}
    {S : γ → δ → Memory → Prop} {f : α → γ} {g : β → δ} (h : MSim A H P x y R)
    (hi : ∀ a b m, R a b m → S (f a) (g b) m) : MSim A H P (Seg.map f x) (mapR g y) S := by
  intro c hc hp
  obtain ⟨h1, h2, h3, h4⟩ := h c hc hp
  refine ⟨h1, h2, h3, ?_⟩
  show Match _ ((x c.sock).1.map f) ((y c).1.map g)
  have e : (mapR g y c).2.mem = (y c).2.mem := rfl
  rw [e]
  generalize (y c).2.mem = m at h4
  revert h4
  cases (x c.sock).1 <;> cases (y c).1 <;> intro h4 <;> first | exact h4.elim | exact hi _ _ _ h4 | exact h4

variable {A H N : Nat} {Sh : Memory → MItem → Prop}

theorem out_item {a : Item} {b : MItem} {m : Memory} (h : Gives A H N Sh a b m) :
    GivesOut A H N Sh (.item a) (.item b) m := by
  refine ⟨by show Out.item _ = _; rw [h.flat], fun it hi => ?_, List.pairwise_singleton _ _, fun it hi => ?_, fun it hi => ?_⟩ <;>
    simp only [itemsOf, List.mem_singleton] at hi <;> subst hi
  · exact ⟨h.valid, fun x hx => ⟨(h.arrs x hx).1, (h.arrs x hx).2.1⟩⟩
  · exact h.shape
  · exact fun x hx => (h.arrs x hx).2.2

theorem out_items {as : List Item} {bs : List MItem} {m : Memory} (h : GivesAll A H N Sh as bs m) :
    GivesOut A H N Sh (.items as) (.items bs) m :=
  ⟨by show Out.items _ = _; rw [h.flat],
    fun it hi => ⟨(h.each it hi).1, fun x hx => ⟨((h.each it hi).2.1 x hx).1, ((h.each it hi).2.1 x hx).2.1⟩⟩, h.apart,
    fun it hi => (h.each it hi).2.2, fun it hi x hx => ((h.each it hi).2.1 x hx).2.2⟩

theorem out_num {n k : Int} {m : Memory} (h : n = k) : GivesOut A H N Sh (.num n) (.num k) m := by
  subst h
  exact ⟨rfl, fun it hi => (by cases hi), List.Pairwise.nil, fun it hi => (by cases hi), fun it hi => (by cases hi)⟩

theorem out_done {m : Memory} : GivesOut A H N Sh .done .done m :=
  ⟨rfl, fun it hi => (by cases hi), List.Pairwise.nil, fun it hi => (by cases hi), fun it hi => (by cases hi)⟩

theorem msim_num {x : Crd Int} {y : Mrd Int} (h : MSim A H (fun _ => True) x y Same) :
    MSim A H (fun m => N ≤ m.length) (Seg.map .num x) (mapR .num y) (GivesOut A H N Sh) :=
  (msim_map h fun _ _ _ e => out_num e).pre fun _ _ => trivial

theorem msim_done {x : Crd Unit} {y : Mrd Unit} (h : MSim A H (fun _ => True) x y Same) :
    MSim A H (fun m => N ≤ m.length) (Seg.map (fun _ => .done) x) (mapR (fun _ => .done) y) (GivesOut A H N Sh) :=
  (msim_map h fun _ _ _ _ => out_done).pre fun _ _ => trivial

theorem sim_textRd (name : Bytes) (op : Op) :
    MSim A H (fun m => N ≤ m.length) (Seg.textRd name op) (textRd name op) (GivesOut A H N OwnArrays) := by
  cases op with
  | get k => exact msim_map (sim_textGet N name) fun _ _ _ h => out_item h
  | getMulti ks => exact msim_map (sim_textMulti N name ks) fun _ _ _ h => out_items h
  | set i => exact msim_done (sim_set i)
  | add i => exact msim_done (sim_add i)
  | replace i => exact msim_done (sim_replace i)
  | delete k => exact msim_done (sim_delete k)
  | increment k d e => exact msim_num (sim_incr _ k d)
  | decrement k d e => exact msim_num (sim_incr _ k d)
  | touch k e => exact msim_done (sim_touch k e)
  | flush => exact msim_done sim_flush

theorem sim_metaRd (op : Op) :
    MSim A H (fun m => N ≤ m.length) (Seg.metaRd op) (metaRd op) (GivesOut A H N OwnArrays) := by
  cases op with
  | get k => exact msim_map (sim_metaGet N k) fun _ _ _ h => out_item h
  | getMulti ks => exact msim_map (sim_metaMulti N ks) fun _ _ _ h => out_items h
  | set i => exact msim_done (sim_mset i)
  | add i => exact msim_done (sim_add i)
  | replace i => exact msim_done (sim_replace i)
  | delete k => exact msim_done (sim_mdelete k)
  | increment k d e => exact msim_num (sim_incr _ k d)
  | decrement k d e => exact msim_num (sim_incr _ k d)
  | touch k e => exact msim_done (sim_mtouch k e)
  | flush => exact msim_done sim_flush

theorem sim_binRd (h1 h2 : Verif.Bin.ReqHdr) (op : Op) :
    MSim A H (fun m => N ≤ m.length) (Seg.binRd h1 h2 op) (binRd op) (GivesOut A H N OneArray) := by
  cases op with
  | get k => exact msim_map (sim_binGet N k) fun _ _ _ h => out_item h
  | getMulti ks => exact msim_map (sim_binMulti N h1 h2 ks) fun _ _ _ h => out_items h
  | set i => exact msim_done (sim_bset h1 i)
  | add i => exact msim_done (sim_badd h1 i)
  | replace i => exact msim_done (sim_breplace h1 i)
  | delete k => exact msim_done (sim_bdelete h1 k)
  | increment k d e => exact msim_num (sim_bincr h1 _ k d e)
  | decrement k d e => exact msim_num (sim_bincr h1 _ k d e)
  | touch k e => exact msim_done (sim_btouch h1 k e)
  | flush => exact msim_done (sim_bflush h1)

/-- The reader on values for each kind of connection. -/
def segRd : Wire → Op → Crd Out
  | .text name => Seg.textRd name
  | .metap => Seg.metaRd
  | .binary h1 h2 => Seg.binRd h1 h2

theorem sim_memRd (w : Wire) (op : Op) :
    MSim A H (fun m => N ≤ m.length) (segRd w op) (memRd w op) (GivesOut A H N (Shape w)) := by
  cases w with
  | text name => exact sim_textRd name op
  | metap => exact sim_metaRd op
  | binary h1 h2 => exact sim_binRd h1 h2 op

theorem sim_segRd (w : Wire) (op : Op) : Sim (call w op).rd (segRd w op) := by
  cases w with
  | text name => exact sim_textCall name op
  | metap => exact sim_metaCall op
  | binary h1 h2 => exact sim_binCall h1 h2 op

/-- C74: what a caller finds in memory after an operation has read its reply is what the bytes of the reply say, for every
operation, protocol, reply and way the bytes come in.  Everything the operation gives it lies in arrays made by that
operation, different items in different arrays, and of the memory that was there only the connection's own buffers have
changed. -/
theorem C74_reply (w : Wire) (op : Op) (c : MSock) (h : Sound c) :
    seenRes (memRd w op c).2.mem (memRd w op c).1 = ((call w op).rd c.sock.all).1
      ∧ (memRd w op c).2.sock.all = ((call w op).rd c.sock.all).2
      ∧ Sound (memRd w op c).2 ∧ (memRd w op c).2.arr = c.arr ∧ (memRd w op c).2.hdr = c.hdr
      ∧ OnlyItsOwn c (memRd w op c).2.mem
      ∧ ∀ out, (memRd w op c).1 = .ok out →
        Fresh c.mem.length (memRd w op c).2.mem (itemsOf out) ∧ Distinct (itemsOf out)
          ∧ (∀ it ∈ itemsOf out, Shape w (memRd w op c).2.mem it)
          ∧ ∀ it ∈ itemsOf out, ∀ x ∈ arrays it, x ≠ c.arr ∧ x ≠ c.hdr := by
  have hok := sound_ok h
  obtain ⟨h1, h2, h3, h4⟩ := sim_memRd (N := c.mem.length) w op c hok (Nat.le_refl _)
  obtain ⟨s1, s2⟩ := sim_segRd w op c.sock (by rw [hok.buf]; have := h.w; omega)
  refine ⟨?_, ?_, ok_sound h2, h2.arr, h2.hdr, ⟨h3.len, h3.same⟩, fun out ho => ?_⟩
  · rw [s1]
    dsimp only
    unfold seenRes
    revert h4
    cases (segRd w op c.sock).1 <;> cases (memRd w op c).1 <;> intro h4 <;> first | exact h4.elim | skip
    · exact congrArg Res.ok h4.1
    · exact congrArg Res.err (Eq.symm h4)
    · rfl
  · rw [s1, h1]
  · rw [ho] at h4
    revert h4
    cases (segRd w op c.sock).1 <;> intro h4 <;> first | exact h4.elim | skip
    exact ⟨h4.2.1, h4.2.2.1, h4.2.2.2.1, h4.2.2.2.2⟩

theorem goAppend_len (m : Memory) (s : Slice) (bs : Bytes) (grow : Nat) : m.length ≤ (goAppend m s bs grow).1.length := by
  unfold goAppend
  split
  · simp [write_len]
  · simp

theorem binStore_len (op : UInt8) (h : Verif.Bin.ReqHdr) (m : Memory) (it : MItem) : m.length ≤ (binStore op h m it).1.length := by
  unfold binStore
  simp only [goMake]
  cases it.flags with
  | none => simp [write_len]
  | some f =>
    dsimp only
    cases resliceTo f 4 <;> simp [write_len, goCopy]

/-- What the request part changes: nothing but the spare bytes. -/
def Mostly (w : Wire) (o : MOp) (m m' : Memory) : Prop :=
  m.length ≤ m'.length ∧ ∀ a, a < m.length → (array m' a).length = (array m a).length
    ∧ ∀ i, ¬ Spare w o a i → (array m' a)[i]? = (array m a)[i]?

theorem mostly_refl (w : Wire) (o : MOp) (m : Memory) : Mostly w o m m := ⟨Nat.le_refl _, fun _ _ => ⟨rfl, fun _ _ => rfl⟩⟩

theorem mostly_same {w : Wire} {o : MOp} {m m' : Memory} (hl : m.length ≤ m'.length) (h : Props.Untouched m m') :
    Mostly w o m m' := ⟨hl, fun a ha => by rw [h a ha]; exact ⟨rfl, fun _ _ => rfl⟩⟩

theorem mostly_set {w : Wire} {it : MItem} {m : Memory} (hw : ∀ h h', w ≠ .binary h h') (hv : it.value.Valid m) (grow : Nat) :
    Mostly w (.set it) m (goAppend m it.value crlf grow).1 := by
  obtain ⟨e1, e2⟩ := goAppend_effect grow m it.value hv
  by_cases hc : it.value.len + 2 ≤ it.value.cap
  · obtain ⟨l, e3, e4⟩ := e1 hc
    refine ⟨goAppend_len _ _ _ _, fun a ha => ?_⟩
    by_cases hne : a = it.value.arr
    · subst hne
      rw [e3]
      have hcap := hv.cap
      refine ⟨by simp only [List.length_append, List.length_take, List.length_drop, List.length_cons, List.length_nil]; omega,
        fun i hi => ?_⟩
      have hi1 : i ≠ it.value.off + it.value.len := fun e => hi ⟨it, rfl, hw, rfl, hc, .inl e⟩
      have hi2 : i ≠ it.value.off + it.value.len + 1 := fun e => hi ⟨it, rfl, hw, rfl, hc, .inr e⟩
      rw [List.append_assoc]
      by_cases hlt : i < it.value.off + it.value.len
      · rw [List.getElem?_append_left (by rw [List.length_take]; omega), List.getElem?_take_of_lt hlt]
      · rw [List.getElem?_append_right (by rw [List.length_take]; omega), List.length_take,
          List.getElem?_append_right (by simp; omega), List.getElem?_drop]
        congr 1
        simp only [List.length_cons, List.length_nil]
        omega
    · rw [e4 a hne]; exact ⟨rfl, fun _ _ => rfl⟩
  · exact mostly_same (goAppend_len _ _ _ _) (e2 (by omega))

theorem request_effect (w : Wire) (grow : Nat) (m : Memory) (o : MOp) (hv : ∀ it, o.item = some it → it.Valid m) :
    Mostly w o m (request w grow m o).1 := by
  cases o with
  | set it =>
    have hv' := (hv it rfl).value
    cases w with
    | text n => exact mostly_set (fun _ _ e => by cases e) hv' grow
    | metap =>
      show Mostly _ _ m (metaSet grow m it).1
      have hap := mostly_set (w := .metap) (fun _ _ e => by cases e) hv' grow
      cases hf : it.flags with
      | none => simp only [metaSet, hf]; exact hap
      | some f =>
        simp only [metaSet, hf]
        cases hb : beUint 4 (f.bytes m) with
        | panic => exact mostly_refl _ _ _
        | err e => exact mostly_refl _ _ _
        | ok n => exact hap
    | binary h h' => exact mostly_same (binStore_len _ _ _ _) (C29_binary _ _ _ _)
  | add it =>
    cases w with
    | text n => exact mostly_refl _ _ _
    | metap => exact mostly_refl _ _ _
    | binary h h' => exact mostly_same (binStore_len _ _ _ _) (C29_binary _ _ _ _)
  | replace it =>
    cases w with
    | text n => exact mostly_refl _ _ _
    | metap => exact mostly_refl _ _ _
    | binary h h' => exact mostly_same (binStore_len _ _ _ _) (C29_binary _ _ _ _)
  | get k => exact mostly_refl _ _ _
  | getMulti k => exact mostly_refl _ _ _
  | delete k => exact mostly_refl _ _ _
  | increment k d e => exact mostly_refl _ _ _
  | decrement k d e => exact mostly_refl _ _ _
  | touch k e => exact mostly_refl _ _ _
  | flush => exact mostly_refl _ _ _

theorem list_ext {a b : Bytes} (h : ∀ i : Nat, a[i]? = b[i]?) : a = b := List.ext_getElem? h

theorem mostly_other {w : Wire} {o : MOp} {m m' : Memory} (h : Mostly w o m m') {a : Nat} (ha : a < m.length)
    (hn : ∀ it, o.item = some it → a ≠ it.value.arr) : array m' a = array m a :=
  list_ext fun i => (h.2 a ha).2 i fun ⟨it, e, _, e', _⟩ => hn it (by rw [e]; rfl) e'

theorem request_sock {w : Wire} {grow : Nat} {c : MSock} {o : MOp} (h : Sound c) (hg : Given c o) :
    Sound { c with mem := (request w grow c.mem o).1 }
      ∧ ({ c with mem := (request w grow c.mem o).1 } : MSock).sock = c.sock := by
  have hm := request_effect w grow c.mem o fun it hi => (hg it hi).1
  have ea : array (request w grow c.mem o).1 c.arr = array c.mem c.arr :=
    mostly_other hm h.arr fun it hi e => ((hg it hi).2 _ (value_mem it)).1 e.symm
  have eh : array (request w grow c.mem o).1 c.hdr = array c.mem c.hdr :=
    mostly_other hm h.hdr fun it hi e => ((hg it hi).2 _ (value_mem it)).2 e.symm
  refine ⟨⟨h.ne, Nat.lt_of_lt_of_le h.arr hm.1, Nat.lt_of_lt_of_le h.hdr hm.1, ?_, ?_, h.rw, h.w⟩, ?_⟩
  · show (array (request w grow c.mem o).1 c.arr).length = _; rw [ea]; exact h.buf
  · show (array (request w grow c.mem o).1 c.hdr).length = _; rw [eh]; exact h.hbuf
  · simp only [MSock.sock]; rw [ea]

theorem mcall_cases (w : Wire) (grow : Nat) (o : MOp) (c : MSock) :
    (∃ b, (request w grow c.mem o).2 = .ok b ∧
        mcall w grow o c = memRd w (o.seen c.mem) { c with mem := (request w grow c.mem o).1 })
      ∨ (∃ e, (request w grow c.mem o).2 = .err e ∧ mcall w grow o c = (.err e, { c with mem := (request w grow c.mem o).1 }))
      ∨ (request w grow c.mem o).2 = .panic ∧ mcall w grow o c = (.panic, { c with mem := (request w grow c.mem o).1 }) := by
  unfold mcall
  cases hr : request w grow c.mem o with
  | mk m r =>
    cases r with
    | ok b => exact .inl ⟨b, rfl, rfl⟩
    | err e => exact .inr (.inl ⟨e, rfl, rfl⟩)
    | panic => exact .inr (.inr ⟨rfl, rfl⟩)

/-- C74: the same for whole operations, whose request part may besides overwrite the two bytes behind the value of the item
it is given (text and meta Set only, C29). -/
theorem C74_call (w : Wire) (grow : Nat) (o : MOp) (c : MSock) (h : Sound c) (hg : Given c o) :
    Sound (mcall w grow o c).2 ∧ (mcall w grow o c).2.arr = c.arr ∧ (mcall w grow o c).2.hdr = c.hdr
      ∧ c.mem.length ≤ (mcall w grow o c).2.mem.length
      ∧ (∀ a, a < c.mem.length → a ≠ c.arr → a ≠ c.hdr → (array (mcall w grow o c).2.mem a).length = (array c.mem a).length
        ∧ ∀ i, ¬ Spare w o a i → (array (mcall w grow o c).2.mem a)[i]? = (array c.mem a)[i]?)
      ∧ (∀ b, (request w grow c.mem o).2 = .ok b →
        seenRes (mcall w grow o c).2.mem (mcall w grow o c).1 = ((call w (o.seen c.mem)).rd c.sock.all).1
          ∧ (mcall w grow o c).2.sock.all = ((call w (o.seen c.mem)).rd c.sock.all).2)
      ∧ ∀ out, (mcall w grow o c).1 = .ok out →
        Fresh c.mem.length (mcall w grow o c).2.mem (itemsOf out) ∧ Distinct (itemsOf out)
          ∧ (∀ it ∈ itemsOf out, Shape w (mcall w grow o c).2.mem it)
          ∧ ∀ it ∈ itemsOf out, ∀ x ∈ arrays it, x ≠ c.arr ∧ x ≠ c.hdr := by
  obtain ⟨s1, s2⟩ := request_sock (w := w) (grow := grow) h hg
  have hm := request_effect w grow c.mem o fun it hi => (hg it hi).1
  rcases mcall_cases w grow o c with ⟨b, hb, e⟩ | ⟨er, hb, e⟩ | ⟨hb, e⟩
  · rw [e]
    obtain ⟨r1, r2, r3, r4, r5, r6, r7⟩ := C74_reply w (o.seen c.mem) _ s1
    rw [s2] at r1 r2
    refine ⟨r3, r4, r5, Nat.le_trans hm.1 r6.1, fun a ha hA hH => ?_, fun _ _ => ⟨r1, r2⟩, fun out ho => ?_⟩
    · rw [r6.2 a (Nat.lt_of_lt_of_le ha hm.1) hA hH]
      exact hm.2 a ha
    · obtain ⟨f1, f2⟩ := r7 out ho
      exact ⟨fun it hi => ⟨(f1 it hi).1, fun x hx => ⟨Nat.le_trans hm.1 ((f1 it hi).2 x hx).1, ((f1 it hi).2 x hx).2⟩⟩, f2⟩
  · rw [e]
    exact ⟨s1, rfl, rfl, hm.1, fun a ha _ _ => hm.2 a ha, fun b h' => (by rw [hb] at h'; cases h'), fun out ho => (by cases ho)⟩
  · rw [e]
    exact ⟨s1, rfl, rfl, hm.1, fun a ha _ _ => hm.2 a ha, fun b h' => (by rw [hb] at h'; cases h'), fun out ho => (by cases ho)⟩

/-- C74: a caller that writes into memory of its own, such as the items it got, does not disturb the connection. -/
theorem C74_caller_writes (c : MSock) (h : Sound c) (a pos : Nat) (bs : Bytes) (ha : a < c.mem.length) (hA : a ≠ c.arr)
    (hH : a ≠ c.hdr) :
    Sound { c with mem := Mem.write c.mem a pos bs } ∧ ({ c with mem := Mem.write c.mem a pos bs } : MSock).sock = c.sock := by
  have e1 : array (Mem.write c.mem a pos bs) c.arr = array c.mem c.arr := write_other _ _ _ _ _ ha (Ne.symm hA)
  have e2 : array (Mem.write c.mem a pos bs) c.hdr = array c.mem c.hdr := write_other _ _ _ _ _ ha (Ne.symm hH)
  refine ⟨⟨h.ne, ?_, ?_, ?_, ?_, h.rw, h.w⟩, ?_⟩
  · show c.arr < (Mem.write _ _ _ _).length; rw [write_len]; exact h.arr
  · show c.hdr < (Mem.write _ _ _ _).length; rw [write_len]; exact h.hdr
  · show (array (Mem.write c.mem a pos bs) c.arr).length = _; rw [e1]; exact h.buf
  · show (array (Mem.write c.mem a pos bs) c.hdr).length = _; rw [e2]; exact h.hbuf
  · simp only [MSock.sock]; rw [e1]

/-- The state of a caller at work. -/
structure Working (w : Wire) (c : MSock) (rs : List (MItem × Item)) : Prop where
  sound : Sound c
  flat : ∀ p ∈ rs, p.1.flat c.mem = p.2
  each : ∀ p ∈ rs, p.1.Valid c.mem ∧ (∀ x ∈ arrays p.1, x < c.mem.length ∧ x ≠ c.arr ∧ x ≠ c.hdr) ∧ Shape w c.mem p.1
  apart : Distinct (rs.map Prod.fst)

theorem shape_shapely (w : Wire) : Shapely (Shape w) := by
  cases w with
  | text n => exact own_shapely
  | metap => exact own_shapely
  | binary h h' => exact one_shapely

/-- Memory in which all arrays of the items are as before. -/
theorem Working.same {w : Wire} {c : MSock} {rs : List (MItem × Item)} (h : Working w c rs) {m : Memory}
    (hs : Sound { c with mem := m }) (hl : c.mem.length ≤ m.length)
    (he : ∀ p ∈ rs, ∀ x ∈ arrays p.1, array m x = array c.mem x) : Working w { c with mem := m } rs := by
  refine ⟨hs, fun p hp => ?_, fun p hp => ⟨valid_congr (he p hp) (h.each p hp).1, fun x hx => ?_,
    shape_shapely w _ _ _ (he p hp) (h.each p hp).2.2⟩, h.apart⟩
  · exact (flat_congr (he p hp)).trans (h.flat p hp)
  · exact ⟨Nat.lt_of_lt_of_le ((h.each p hp).2.1 x hx).1 hl, ((h.each p hp).2.1 x hx).2⟩

/-- Contents of a slice depend on the bytes it covers only. -/
theorem bytes_ext {m m' : Memory} {s : Slice}
    (h : ∀ i, s.off ≤ i → i < s.off + s.len → (array m' s.arr)[i]? = (array m s.arr)[i]?) : s.bytes m' = s.bytes m := by
  unfold Slice.bytes
  apply list_ext
  intro i
  by_cases hi : i < s.len
  · rw [List.getElem?_take_of_lt hi, List.getElem?_take_of_lt hi, List.getElem?_drop, List.getElem?_drop]
    exact h _ (by omega) (by omega)
  · rw [List.getElem?_take_eq_none (by omega), List.getElem?_take_eq_none (by omega)]

theorem pairwise_mem {α : Type} {R : α → α → Prop} {l : List α} (h : l.Pairwise R) {a b : α} (ha : a ∈ l) (hb : b ∈ l)
    (hne : a ≠ b) : R a b ∨ R b a := by
  induction h with
  | nil => cases ha
  | cons h1 h2 ih =>
    rcases List.mem_cons.1 ha with rfl | ha'
    · rcases List.mem_cons.1 hb with rfl | hb'
      · exact absurd rfl hne
      · exact .inl (h1 _ hb')
    · rcases List.mem_cons.1 hb with rfl | hb'
      · exact .inr (h1 _ ha')
      · exact ih ha' hb'

/-- After an operation. -/
theorem Working.after {w : Wire} {c : MSock} {rs : List (MItem × Item)} (h : Working w c rs) (grow : Nat) (o : MOp)
    (hg : Given c o)
    (hi : ∀ it, o.item = some it → (∃ p ∈ rs, it.value = p.1.value) ∨ ∀ p ∈ rs, it.value.arr ∉ arrays p.1) :
    Working w (mcall w grow o c).2 rs := by
  obtain ⟨r1, r2, r3, r4, r5, _, _⟩ := C74_call w grow o c h.sound hg
  generalize (mcall w grow o c).2 = c' at r1 r2 r3 r4 r5
  have hlen : ∀ p ∈ rs, ∀ x ∈ arrays p.1, (array c'.mem x).length = (array c.mem x).length := fun p hp x hx =>
    (r5 x ((h.each p hp).2.1 x hx).1 ((h.each p hp).2.1 x hx).2.1 ((h.each p hp).2.1 x hx).2.2).1
  have hbytes : ∀ p ∈ rs, ∀ x ∈ arrays p.1, ∀ i, ¬ Spare w o x i → (array c'.mem x)[i]? = (array c.mem x)[i]? :=
    fun p hp x hx => (r5 x ((h.each p hp).2.1 x hx).1 ((h.each p hp).2.1 x hx).2.1 ((h.each p hp).2.1 x hx).2.2).2
  -- a spare byte in an array of a received item is behind the value of that item
  have hsp : ∀ p ∈ rs, ∀ x ∈ arrays p.1, ∀ i, Spare w o x i →
      x = p.1.value.arr ∧ p.1.value.off + p.1.value.len ≤ i ∧ (∀ hh hh', w ≠ .binary hh hh') := by
    rintro p hp x hx i ⟨it, rfl, hw, rfl, hc, hio⟩
    rcases hi it rfl with ⟨q, hq, e⟩ | hno
    · have hqp : q = p ∨ q.1 ≠ p.1 ∨ q.1 = p.1 := by
        by_cases e : q.1 = p.1
        · exact .inr (.inr e)
        · exact .inr (.inl e)
      by_cases hv : q.1.value.arr = p.1.value.arr
      · by_cases hqq : q.1.value = p.1.value
        · rw [e, hqq] at hio ⊢
          exact ⟨rfl, by omega, hw⟩
        · -- two different items cannot share an array
          exfalso
          have hmem1 : q.1 ∈ rs.map Prod.fst := List.mem_map_of_mem hq
          have hmem2 : p.1 ∈ rs.map Prod.fst := List.mem_map_of_mem hp
          have hd := h.apart
          unfold Distinct at hd
          have := pairwise_mem hd hmem1 hmem2 (fun e => hqq (by rw [e]))
          rcases this with t | t
          · exact t _ (value_mem q.1) (by rw [hv]; exact value_mem p.1)
          · exact t _ (value_mem p.1) (by rw [← hv]; exact value_mem q.1)
      · -- the array is that of the value of `q` and of `p`, so of the flags of `p`
        exfalso
        have hx' : q.1.value.arr ∈ arrays p.1 := by rw [← e]; exact hx
        by_cases hqp' : q.1 = p.1
        · exact hv (by rw [hqp'])
        · have := pairwise_mem h.apart (List.mem_map_of_mem hq) (List.mem_map_of_mem hp) hqp'
          rcases this with t | t
          · exact t _ (value_mem q.1) hx'
          · exact t _ hx' (value_mem q.1)
    · exact absurd hx (hno p hp)
  have hflat : ∀ p ∈ rs, p.1.value.bytes c'.mem = p.1.value.bytes c.mem
      ∧ ∀ f, p.1.flags = some f → f.bytes c'.mem = f.bytes c.mem := by
    intro p hp
    refine ⟨bytes_ext fun i h1 h2 => hbytes p hp _ (value_mem _) i fun hs => ?_, fun f hf => bytes_ext fun i h1 h2 =>
      hbytes p hp _ (flags_mem hf) i fun hs => ?_⟩
    · have := (hsp p hp _ (value_mem _) i hs).2.1
      omega
    · obtain ⟨e, _, hw⟩ := hsp p hp _ (flags_mem hf) i hs
      have hsh := (h.each p hp).2.2
      cases w with
      | text n => exact ((hsh.flags f hf).1) e
      | metap => exact ((hsh.flags f hf).1) e
      | binary a b => exact hw a b rfl
  refine ⟨r1, fun p hp => ?_, fun p hp => ?_, h.apart⟩
  · rw [← h.flat p hp]
    unfold MItem.flat
    rw [(hflat p hp).1]
    cases hf : p.1.flags with
    | none => rfl
    | some f => simp only [Option.map_some]; rw [(hflat p hp).2 f hf]
  · obtain ⟨v1, v2, v3⟩ := h.each p hp
    refine ⟨⟨⟨v1.value.len, ?_⟩, fun f hf => ⟨(v1.flags f hf).len, ?_⟩⟩, fun x hx => ?_, ?_⟩
    · rw [hlen p hp _ (value_mem _)]; exact v1.value.cap
    · rw [hlen p hp _ (flags_mem hf)]; exact (v1.flags f hf).cap
    · rw [r2, r3]
      exact ⟨Nat.lt_of_lt_of_le (v2 x hx).1 r4, (v2 x hx).2⟩
    · cases w with
      | text n =>
        exact ⟨by rw [hlen p hp _ (value_mem _)]; exact v3.value, fun f hf => by
          rw [hlen p hp _ (flags_mem hf)]; exact v3.flags f hf⟩
      | metap =>
        exact ⟨by rw [hlen p hp _ (value_mem _)]; exact v3.value, fun f hf => by
          rw [hlen p hp _ (flags_mem hf)]; exact v3.flags f hf⟩
      | binary a b =>
        exact ⟨by rw [hlen p hp _ (value_mem _)]; exact v3.flags, by rw [hlen p hp _ (value_mem _)]; exact v3.value⟩

theorem use_working {w : Wire} {c0 c : MSock} {rs : List (MItem × Item)} (h : Using w c0 c rs) : Working w c rs := by
  induction h with
  | start hs =>
    exact ⟨hs, fun p hp => (by cases hp), fun p hp => (by cases hp), List.Pairwise.nil⟩
  | @make c rs bs _ ih =>
    have hl : c.mem.length ≤ (c.mem ++ [bs]).length := by simp
    have o := (sound_ok ih.sound).alloc bs
    exact ih.same (ok_sound o.1) hl fun p hp x hx => array_append _ _ _ ((ih.each p hp).2.1 x hx).1
  | @write c rs a pos bs _ ha hpos hA hH hno ih =>
    refine ih.same (C74_caller_writes _ ih.sound a pos bs ha hA hH).1 (by rw [write_len]; exact Nat.le_refl _) fun p hp x hx => ?_
    exact write_other _ _ _ _ _ ha fun e => hno p hp (by rw [← e]; exact hx)
  | @got c rs grow o out c' _ hg hi hc ih =>
    have ha := ih.after grow o hg hi
    obtain ⟨_, r2, r3, _, _, _, r7⟩ := C74_call w grow o c ih.sound hg
    rw [hc] at ha r2 r3 r7
    obtain ⟨f1, f2, f3, f4⟩ := r7 out rfl
    have ha' : Working w c' rs := ha
    refine ⟨ha'.sound, fun p hp => ?_, fun p hp => ?_, ?_⟩
    · rcases List.mem_append.1 hp with hp | hp
      · exact ha'.flat p hp
      · obtain ⟨it, _, rfl⟩ := List.mem_map.1 hp
        rfl
    · rcases List.mem_append.1 hp with hp | hp
      · exact ha'.each p hp
      · obtain ⟨it, hit, rfl⟩ := List.mem_map.1 hp
        refine ⟨(f1 it hit).1, fun x hx => ⟨((f1 it hit).2 x hx).2, ?_⟩, f3 it hit⟩
        rw [show c'.arr = c.arr from r2, show c'.hdr = c.hdr from r3]
        exact f4 it hit x hx
    · unfold Distinct
      rw [List.map_append, List.pairwise_append]
      refine ⟨ha'.apart, ?_, fun a hma b hmb x hxa hxb => ?_⟩
      · rw [List.map_map, show (Prod.fst ∘ fun it : MItem => (it, it.flat c'.mem)) = id from rfl, List.map_id]
        exact f2
      · rw [List.map_map, show (Prod.fst ∘ fun it : MItem => (it, it.flat c'.mem)) = id from rfl, List.map_id] at hmb
        obtain ⟨p, hp, rfl⟩ := List.mem_map.1 hma
        have h1 := ((ih.each p hp).2.1 x hxa).1
        have h2 := ((f1 b hmb).2 x hxb).1
        omega
  | @failed c rs grow o r c' _ hg hi _ hc ih =>
    have ha := ih.after grow o hg hi
    rw [hc] at ha
    exact ha

/-- C74: items stay as they came, whatever is done with the connection later on and whatever the caller does elsewhere in
memory, even if it hands them to Set again. -/
theorem C74_kept (w : Wire) (c0 c : MSock) (rs : List (MItem × Item)) (h : Using w c0 c rs) (it : MItem) (v : Item)
    (hm : (it, v) ∈ rs) : it.flat c.mem = v := (use_working h).flat (it, v) hm

/-- C74: and no two of the items a caller ever got over a connection share memory. -/
theorem C74_apart (w : Wire) (c0 c : MSock) (rs : List (MItem × Item)) (h : Using w c0 c rs) : Distinct (rs.map Prod.fst) :=
  (use_working h).apart

/-! ### appending to what one got -/

theorem goAppend_keeps {m : Memory} {s : Slice} (hs : s.Valid m) (bs : Bytes) (grow : Nat) (t : Slice)
    (ht : t.arr < m.length) (hd : t.arr ≠ s.arr ∨ t.off + t.len ≤ s.off + s.len) :
    t.bytes (goAppend m s bs grow).1 = t.bytes m := by
  have hcap := hs.cap
  unfold goAppend
  split
  · rename_i hc
    dsimp only
    by_cases hsa : s.arr < m.length
    · rcases hd with hd | hd
      · exact bytes_congr (write_other _ _ _ _ _ hsa hd)
      · by_cases hd' : t.arr = s.arr
        · refine bytes_ext fun i h1 h2 => ?_
          rw [hd', write_same _ _ _ _ hsa]
          unfold splice
          rw [List.append_assoc, List.getElem?_append_left (by rw [List.length_take]; omega),
            List.getElem?_take_of_lt (by omega)]
        · exact bytes_congr (write_other _ _ _ _ _ hsa hd')
    · unfold write
      rw [List.set_eq_of_length_le (by omega)]
  · exact bytes_congr (array_append _ _ _ ht)

/-- C74: appending to the value or the flags of an item got over text or meta changes neither that item nor any other. -/
theorem C74_append (w : Wire) (hw : ∀ h h', w ≠ .binary h h') (c0 c : MSock) (rs : List (MItem × Item)) (h : Using w c0 c rs)
    (it : MItem) (v : Item) (hm : (it, v) ∈ rs) (s : Slice) (hs : s = it.value ∨ it.flags = some s) (bs : Bytes) (grow : Nat) :
    ∀ p ∈ rs, p.1.flat (goAppend c.mem s bs grow).1 = p.2 := by
  have hwk := use_working h
  obtain ⟨v1, v2, v3⟩ := hwk.each _ hm
  have v3' : OwnArrays c.mem it := by
    cases w with
    | text n => exact v3
    | metap => exact v3
    | binary a b => exact absurd rfl (hw a b)
  have hsm : s.arr ∈ arrays it := by
    rcases hs with rfl | hs
    · exact value_mem it
    · exact flags_mem hs
  have hsv : s.Valid c.mem := by
    rcases hs with rfl | hs
    · exact v1.value
    · exact v1.flags s hs
  intro p hp
  obtain ⟨u1, u2, u3⟩ := hwk.each p hp
  have key : ∀ t : Slice, t = p.1.value ∨ p.1.flags = some t → t.bytes (goAppend c.mem s bs grow).1 = t.bytes c.mem := by
    intro t ht
    have htm : t.arr ∈ arrays p.1 := by
      rcases ht with rfl | ht
      · exact value_mem p.1
      · exact flags_mem ht
    refine goAppend_keeps hsv bs grow t (u2 _ htm).1 ?_
    by_cases hpi : p.1 = it
    · rw [hpi] at ht
      by_cases hts : t = s
      · exact .inr (by rw [hts]; omega)
      · left
        rcases ht with rfl | ht
        · rcases hs with rfl | hs
          · exact absurd rfl hts
          · exact Ne.symm (v3'.flags s hs).1
        · rcases hs with rfl | hs
          · exact (v3'.flags t ht).1
          · rw [ht] at hs; cases hs; exact absurd rfl hts
    · left
      intro e
      rcases pairwise_mem hwk.apart (List.mem_map_of_mem hp) (List.mem_map_of_mem hm) hpi with q | q
      · exact q _ htm (by rw [e]; exact hsm)
      · exact q _ hsm (by rw [← e]; exact htm)
  rw [← hwk.flat p hp]
  unfold MItem.flat
  rw [key _ (.inl rfl)]
  cases hf : p.1.flags with
  | none => rfl
  | some f => simp only [Option.map_some]; rw [key f (.inr hf)]

/-- C74: over binary, appending to the flags of an item overwrites what comes behind them in the reply: with a reply that
carries no key, the beginning of the value. -/
theorem C74_append_binary (h1 h2 : Verif.Bin.ReqHdr) (c0 c : MSock) (rs : List (MItem × Item))
    (h : Using (.binary h1 h2) c0 c rs) (it : MItem) (v : Item) (hm : (it, v) ∈ rs) (f : Slice) (hf : it.flags = some f)
    (hk : it.value.off = f.len) (bs : Bytes) (hb : bs.length ≤ it.value.len) (grow : Nat) :
    (it.flat (goAppend c.mem f bs grow).1).value = bs ++ v.value.drop bs.length
      ∧ (it.flat (goAppend c.mem f bs grow).1).flags = v.flags := by
  have hwk := use_working h
  obtain ⟨v1, v2, v3⟩ := hwk.each _ hm
  have hflat : it.flat c.mem = v := hwk.flat _ hm
  have v3' : OneArray c.mem it := v3
  obtain ⟨⟨g, hg, g1, g2, g3⟩, q1⟩ := v3'
  rw [hf] at hg
  cases hg
  have hlt := (v2 _ (value_mem it)).1
  have hcap : f.len + bs.length ≤ f.cap := by
    have : (array c.mem it.value.arr).length = f.cap := g3.symm
    have := q1
    omega
  have e : goAppend c.mem f bs grow = (Mem.write c.mem f.arr (f.off + f.len) bs, { f with len := f.len + bs.length }) := by
    unfold goAppend
    rw [if_pos hcap]
  rw [e]
  constructor
  · show it.value.bytes (Mem.write c.mem f.arr (f.off + f.len) bs) = _
    have hv : v.value = it.value.bytes c.mem := by rw [← hflat]; rfl
    rw [hv]
    unfold Slice.bytes
    rw [g1, write_same _ _ _ _ hlt, g2, Nat.zero_add, hk]
    unfold splice
    have hl : (List.take f.len (array c.mem it.value.arr)).length = f.len := by
      rw [List.length_take]
      have := q1
      have : f.len ≤ (array c.mem it.value.arr).length := by omega
      omega
    rw [List.append_assoc, List.drop_left' hl]
    rw [List.take_append, List.take_of_length_le hb, List.drop_take, List.drop_drop]
  · show it.flags.map _ = v.flags
    rw [← hflat]
    show _ = it.flags.map _
    rw [hf, Option.map_some, Option.map_some]
    congr 1
    refine bytes_ext fun i i1 i2 => ?_
    rw [g1, write_same _ _ _ _ hlt]
    unfold splice
    rw [List.append_assoc, List.getElem?_append_left, List.getElem?_take_of_lt (by omega)]
    rw [List.length_take]
    have := q1
    omega

theorem readNew_off {n : Nat} {c c' : MSock} {s : Slice} (h : readNew n c = (.ok s, c')) : s.off = 0 := by
  have e : readNew n c = match fullLoop n c.mem.length 0 n { c with mem := c.mem ++ [List.replicate n 0] } with
      | (.ok _, d) => (.ok { arr := c.mem.length, off := 0, len := (List.replicate n (0 : UInt8)).length, cap := (List.replicate n (0 : UInt8)).length }, d)
      | (.err e, d) => (.err e, d)
      | (.panic, d) => (.panic, d) := by
    unfold readNew
    rw [Mrd.bind_apply]
    show (Mrd.bind _ _ : Mrd Slice) _ = _
    unfold Mrd.bind
    dsimp only
    rcases fullLoop n c.mem.length 0 n { c with mem := c.mem ++ [List.replicate n 0] } with ⟨r, c'⟩
    cases r <;> rfl
  rw [e] at h
  split at h
  · have := Res.ok.inj (Prod.mk.inj h).1
    rw [← this]
  · cases (Prod.mk.inj h).1
  · cases (Prod.mk.inj h).1

/-- C74: where the parts of an item lie that binary Get gives: the flags at the beginning of the array, as many bytes as the
reply says it has extras, then as many as it says it has key, then the value. -/
theorem C74_layout (h1 h2 : Verif.Bin.ReqHdr) (grow : Nat) (k : Bytes) (c c' : MSock) (hs : Sound c) (it : MItem)
    (h : mcall (.binary h1 h2) grow (.get k) c = (.ok (.item it), c')) :
    ∃ hd rest f, c.sock.all = hd ++ rest ∧ hd.length = 24 ∧ it.flags = some f ∧ f.arr = it.value.arr ∧ f.off = 0
      ∧ f.len = (hd.getD 4 0).toNat ∧ it.value.off = (f.len + getBE ((hd.take 4).drop 2)) % 2 ^ 16 := by
  have h' : mapR MOut.item (Bin.getReply k) c = (.ok (.item it), c') := h
  obtain ⟨hr, -⟩ := Prod.mk.inj h'
  obtain ⟨t1, t2, t3, t4⟩ := msim_readHdr (A := c.arr) (H := c.hdr) (P := fun _ => True) (fun _ _ _ _ => trivial) c (sound_ok hs) trivial
  obtain ⟨s1, -⟩ := sim_readHdr c.sock (by rw [(sound_ok hs).buf]; have := hs.w; omega)
  have hb : (Bin.getReply k c).1 = .ok it := by
    cases hg : (Bin.getReply k c).1 with
    | ok a => rw [hg] at hr; injection hr with e; injection e with e; rw [e]
    | err e => rw [hg] at hr; cases hr
    | panic => rw [hg] at hr; cases hr
  clear hr h' h
  unfold Bin.getReply at hb
  rw [Mrd.bind_apply] at hb
  cases hq : Bin.readHdr c with
  | mk y c1 =>
  rw [hq] at hb t4
  cases y with
  | err e => cases hb
  | panic => cases hb
  | ok r =>
  dsimp only at hb t4
  have hv : Verif.Bin.readHdr c.sock.all = (.ok r, (Seg.Bin.readHdr c.sock).2.all) := by
    rw [s1]
    revert t4
    cases (Seg.Bin.readHdr c.sock).1 <;> intro t4 <;> first | exact t4.elim | skip
    rw [t4.1]
  have hv' : (Verif.Bin.readHdr >>= fun r => (pure r : Rd Verif.Bin.ResHdr)) c.sock.all = (.ok r, (Seg.Bin.readHdr c.sock).2.all) := by
    rw [Rd.bind_of_ok hv]; rfl
  obtain ⟨hd, rest, e1, ⟨e2, -⟩, e3⟩ := (hdr_iff ⟨fun e => (by cases e), fun e => (by cases e)⟩ (fun e => (by cases e))).1 hv'
  have e3' : Verif.Bin.ResHdr.ofBytes hd = r := by
    have := (Prod.mk.inj e3).1
    injection this
  subst e3'
  rw [Mrd.bind_apply] at hb
  cases hn : readNew (Verif.Bin.ResHdr.ofBytes hd).totalBodyLength c1 with
  | mk y c2 =>
  rw [hn] at hb
  cases y with
  | err e => cases hb
  | panic => cases hb
  | ok buf =>
  have hb0 := readNew_off hn
  dsimp only at hb
  split at hb
  · split at hb <;> cases hb
  · simp only [Mrd.bind_apply, Mrd.lift, sliceFrom, sliceTo] at hb
    by_cases p1 : (Verif.Bin.ResHdr.ofBytes hd).valueStart ≤ buf.len
    · rw [if_pos p1] at hb
      dsimp only at hb
      by_cases p2 : (0 : Int) ≤ ((Verif.Bin.ResHdr.ofBytes hd).extraLength : Int)
          ∧ ((Verif.Bin.ResHdr.ofBytes hd).extraLength : Int) ≤ buf.len
      · rw [if_pos p2] at hb
        dsimp only at hb
        have hb' := Res.ok.inj hb
        subst hb'
        refine ⟨hd, rest, _, e1, e2, rfl, rfl, hb0, rfl, ?_⟩
        show buf.off + _ = _
        rw [hb0, Nat.zero_add]
        rfl
      · rw [if_neg p2] at hb
        cases hb
    · rw [if_neg p1] at hb
      cases hb

/-- C74: so an append to the flags of what binary Get gave writes over the beginning of the value, if the reply has no key
in it (as the protocol has it for this request). -/
theorem C74_flags_over_value (h1 h2 : Verif.Bin.ReqHdr) (grow grow' : Nat) (k : Bytes) (c c' : MSock) (hs : Sound c) (it : MItem)
    (h : mcall (.binary h1 h2) grow (.get k) c = (.ok (.item it), c')) (hk : (c.sock.all.take 4).drop 2 = [0, 0]) (f : Slice)
    (hf : it.flags = some f) (bs : Bytes) (hb : bs.length ≤ it.value.len) :
    (it.flat (goAppend c'.mem f bs grow').1).value = bs ++ (it.flat c'.mem).value.drop bs.length
      ∧ (it.flat (goAppend c'.mem f bs grow').1).flags = (it.flat c'.mem).flags := by
  have hu : Using (.binary h1 h2) c c' ([] ++ (itemsOf (.item it)).map fun it => (it, it.flat c'.mem)) :=
    .got grow (.get k) _ c' (.start hs) (fun it e => (by cases e)) (fun it e => (by cases e)) h
  obtain ⟨hd, rest, g, e1, e2, e3, -, -, e6, e7⟩ := C74_layout h1 h2 grow k c c' hs it h
  rw [hf] at e3
  cases e3
  refine C74_append_binary h1 h2 c c' _ hu it _ (List.mem_singleton.2 rfl) f hf ?_ bs hb grow'
  rw [e1, List.take_append_of_le_length (by omega)] at hk
  rw [hk] at e7
  rw [e7, show getBE [0, 0] = 0 from rfl, Nat.add_zero, e6]
  exact Nat.mod_eq_of_lt (by have := (hd.getD 4 0).toNat_lt; omega)

/-- C74: what an operation sends is what the caller has in memory at that time (over binary if the flags are at least four
bytes, C29). -/
theorem C74_sends (w : Wire) (grow : Nat) (m : Memory) (o : MOp) (hv : ∀ it, o.item = some it → it.Valid m)
    (hf : ∀ h h', w = .binary h h' → ∀ it f, o.item = some it → it.flags = some f → 4 ≤ f.len) :
    (request w grow m o).2 = (call w (o.seen m)).wire := by
  have bin : ∀ (op : UInt8) (h h' : Verif.Bin.ReqHdr) (it : MItem), w = .binary h h' → o.item = some it →
      (binStore op h m it).2 = Verif.Bin.storeWire h op (it.flat m) := by
    intro op h h' it hw ho
    have hl : ∀ f, it.flags = some f → 4 ≤ f.len := fun f hff => hf h h' hw it f ho hff
    have hval := hv it ho
    rw [(C29_binary_sends op h m it hval).1 fun f hff => Nat.le_trans (hl f hff) (hval.flags f hff).len]
    unfold Verif.Bin.storeWire MItem.flat
    cases hff : it.flags with
    | none => rfl
    | some f =>
      have hb : 4 ≤ (f.bytes m).length := by rw [bytes_length (hval.flags f hff)]; exact hl f hff
      have ht : (f.bytes m).take 4 = ((array m f.arr).drop f.off).take 4 := by
        unfold Slice.bytes
        rw [List.take_take, Nat.min_eq_left (hl f hff)]
      have hx : ∀ i : Item, Verif.Bin.storeExtra { i with flags := some (((array m f.arr).drop f.off).take 4) }
          = Verif.Bin.storeExtra { i with flags := some (f.bytes m) } := by
        intro i
        have h4 : (((array m f.arr).drop f.off).take 4).length = 4 := by rw [← ht, List.length_take]; omega
        unfold Verif.Bin.storeExtra
        dsimp only
        rw [← ht] at h4 ⊢
        have hb' : (4 : Int) ≤ ((f.bytes m).length : Int) := by omega
        simp [Verif.sliceTo, h4, hb', List.take_take]
      simp only [Option.map_some]
      rw [hx { key := it.key, value := it.value.bytes m, expiration := it.expiration, cas := it.cas, server := it.server }]
      rfl
  cases o with
  | set it =>
    cases w with
    | text n => exact C29_text_set_sends grow m it (hv it rfl)
    | metap => exact C29_meta_set_sends grow m it (hv it rfl)
    | binary h h' => exact bin _ h h' it rfl rfl
  | add it =>
    cases w with
    | text n => exact C29_store_sends _ m it (hv it rfl)
    | metap => exact C29_store_sends _ m it (hv it rfl)
    | binary h h' => exact bin _ h h' it rfl rfl
  | replace it =>
    cases w with
    | text n => exact C29_store_sends _ m it (hv it rfl)
    | metap => exact C29_store_sends _ m it (hv it rfl)
    | binary h h' => exact bin _ h h' it rfl rfl
  | _ => rfl

/-- C74: an item put back with Set goes out as it came in, however much later (over binary if its flags are at least four
bytes). -/
theorem C74_put_back (w : Wire) (c0 c : MSock) (rs : List (MItem × Item)) (h : Using w c0 c rs) (it : MItem) (v : Item)
    (hm : (it, v) ∈ rs) (grow : Nat) (hf : ∀ h h', w = .binary h h' → ∀ f, v.flags = some f → 4 ≤ f.length) :
    Given c (.set it) ∧ (request w grow c.mem (.set it)).2 = (call w (.set v)).wire := by
  have hwk := use_working h
  have hfl : it.flat c.mem = v := hwk.flat _ hm
  have hea : it.Valid c.mem ∧ ∀ x ∈ arrays it, x < c.mem.length ∧ x ≠ c.arr ∧ x ≠ c.hdr :=
    ⟨(hwk.each _ hm).1, (hwk.each _ hm).2.1⟩
  have hg : Given c (.set it) := by
    intro it' e
    cases e
    exact ⟨hea.1, fun x hx => (hea.2 x hx).2⟩
  refine ⟨hg, ?_⟩
  rw [← hfl]
  refine C74_sends w grow c.mem (.set it) (fun it' e => (hg it' e).1) fun h h' hw it' f e hff => ?_
  cases e
  have := hf h h' hw (f.bytes c.mem) (by rw [← hfl]; unfold MItem.flat; rw [hff]; rfl)
  rw [bytes_length (hea.1.flags f hff)] at this
  exact this

/-! ### cases -/

/-- A new connection with these bytes on their way. -/
def fresh (net : Bytes) : MSock :=
  { mem := [List.replicate bufSize 0, List.replicate 24 0], arr := 0, hdr := 1, r := 0, w := 0, net := net, cuts := fun _ => 3, t := 0 }

theorem fresh_sound (net : Bytes) : Sound (fresh net) :=
  ⟨Nat.zero_ne_one, Nat.zero_lt_succ _, Nat.lt_succ_self _, List.length_replicate, List.length_replicate, Nat.le_refl _, Nat.zero_le _⟩

theorem fresh_all (net : Bytes) : (fresh net).sock.all = net := by
  simp [fresh, MSock.sock, Sock.all]

/-- The next step of a caller, from what the bytes that come say. -/
theorem use_step {w : Wire} {c0 c : MSock} {rs : List (MItem × Item)} (h : Using w c0 c rs) (grow : Nat) (o : MOp)
    (hg : Given c o) (hi : ∀ it, o.item = some it → (∃ p ∈ rs, it.value = p.1.value) ∨ ∀ p ∈ rs, it.value.arr ∉ arrays p.1)
    {b : Bytes} (hb : (request w grow c.mem o).2 = .ok b) {v : Out} {rest : Bytes}
    (hr : (call w (o.seen c.mem)).rd c.sock.all = (.ok v, rest)) :
    ∃ out c', mcall w grow o c = (.ok out, c') ∧ Using w c0 c' (rs ++ (itemsOf out).map fun it => (it, it.flat c'.mem))
      ∧ seen c'.mem out = v ∧ c'.sock.all = rest := by
  obtain ⟨-, -, -, -, -, r6, -⟩ := C74_call w grow o c (use_working h).sound hg
  obtain ⟨q1, q2⟩ := r6 b hb
  rw [hr] at q1 q2
  cases hm : mcall w grow o c with
  | mk r c' =>
    rw [hm] at q1 q2
    cases r with
    | err e => cases q1
    | panic => cases q1
    | ok out => exact ⟨out, c', rfl, .got grow o out c' h hg hi hm, Res.ok.inj q1, q2⟩

theorem seen_item {m : Memory} {out : MOut} {v : Item} (h : seen m out = .item v) : ∃ it, out = .item it ∧ it.flat m = v := by
  cases out with
  | item it => exact ⟨it, rfl, by injection h⟩
  | items l => cases h
  | num n => cases h
  | done => cases h

/-- Text: Get, the item put back with Set (which writes behind its value), another Get: the first item is what it was. -/
example : ∃ c rs i1 i2, Using (.text b!"s:1") (fresh (b!"VALUE k 5 5\r\nhello\r\nEND\r\n" ++ b!"STORED\r\n"
      ++ b!"VALUE k 0 6\r\nworlds\r\nEND\r\n")) c rs
    ∧ (i1, { key := b!"k", value := b!"hello", flags := some [0, 0, 0, 5], server := b!"s:1" }) ∈ rs
    ∧ (i2, { key := b!"k", value := b!"worlds", flags := some [0, 0, 0, 0], server := b!"s:1" }) ∈ rs
    ∧ (i1.flat c.mem).value = b!"hello" ∧ c.sock.all = [] := by
  have u0 : Using (.text b!"s:1") (fresh (b!"VALUE k 5 5\r\nhello\r\nEND\r\n" ++ b!"STORED\r\n"
      ++ b!"VALUE k 0 6\r\nworlds\r\nEND\r\n")) _ [] := .start (fresh_sound _)
  obtain ⟨out, c1, -, u1, s1, a1⟩ := use_step u0 0 (.get b!"k") (fun it e => (by cases e)) (fun it e => (by cases e))
    (b := b!"gets k\r\n") rfl (v := .item { key := b!"k", value := b!"hello", flags := some [0, 0, 0, 5], server := b!"s:1" })
    (rest := b!"STORED\r\n" ++ b!"VALUE k 0 6\r\nworlds\r\nEND\r\n") (by rw [fresh_all]; decide +kernel)
  obtain ⟨i1, rfl, f1⟩ := seen_item s1
  rw [show ([] ++ (itemsOf (.item i1)).map fun it => (it, it.flat c1.mem)) = [(i1, i1.flat c1.mem)] from rfl, f1] at u1
  obtain ⟨g2, b2⟩ := C74_put_back _ _ _ _ u1 i1 _ (List.mem_singleton.2 rfl) 0 (fun h h' e => (by cases e))
  obtain ⟨out, c2, -, u2, s2, a2⟩ := use_step u1 0 (.set i1) g2 (fun it e => (by cases e; exact .inl ⟨_, List.mem_singleton.2 rfl, rfl⟩))
    b2 (v := .done) (rest := b!"VALUE k 0 6\r\nworlds\r\nEND\r\n") (by rw [a1, show (MOp.set i1).seen c1.mem = .set (i1.flat c1.mem) from rfl, f1]; decide +kernel)
  have e2 : itemsOf out = [] := by cases out <;> first | rfl | cases s2
  rw [e2] at u2
  obtain ⟨out, c3, -, u3, s3, a3⟩ := use_step u2 0 (.get b!"k") (fun it e => (by cases e)) (fun it e => (by cases e))
    (b := b!"gets k\r\n") rfl (v := .item { key := b!"k", value := b!"worlds", flags := some [0, 0, 0, 0], server := b!"s:1" })
    (rest := []) (by rw [a2, show (MOp.get b!"k").seen c2.mem = .get b!"k" from rfl]; decide +kernel)
  obtain ⟨i3, rfl, f3⟩ := seen_item s3
  refine ⟨c3, _, i1, i3, u3, ?_, ?_, ?_, a3⟩
  · simp
  · rw [← f3]; simp [itemsOf]
  · rw [C74_kept _ _ _ _ u3 i1 { key := b!"k", value := b!"hello", flags := some [0, 0, 0, 5], server := b!"s:1" } (by simp)]

/-- Binary: Get, then `append(item.Flags, 'X')`: the value is `Xello`. -/
example (h1 h2 : Verif.Bin.ReqHdr) :
    ∃ c it f, mcall (.binary h1 h2) 0 (.get b!"k") (fresh ([0x81, 0, 0, 0, 4, 0, 0, 0, 0, 0, 0, 9, 0, 0, 0, 0, 0, 0, 0, 0, 0, 0, 0, 7]
        ++ [0, 0, 0, 5] ++ b!"hello")) = (.ok (.item it), c)
      ∧ it.flags = some f ∧ it.flat c.mem = { key := b!"k", value := b!"hello", flags := some [0, 0, 0, 5], cas := 7 }
      ∧ (it.flat (goAppend c.mem f b!"X" 0).1).value = b!"Xello" := by
  have hs := fresh_sound ([0x81, 0, 0, 0, 4, 0, 0, 0, 0, 0, 0, 9, 0, 0, 0, 0, 0, 0, 0, 0, 0, 0, 0, 7] ++ [0, 0, 0, 5] ++ b!"hello")
  obtain ⟨out, c, hc, u, s, a⟩ := use_step (w := .binary h1 h2) (.start hs) 0 (.get b!"k")
    (fun it e => (by cases e)) (fun it e => (by cases e)) rfl
    (v := .item { key := b!"k", value := b!"hello", flags := some [0, 0, 0, 5], cas := 7 }) (rest := [])
    (by rw [fresh_all]; rfl)
  obtain ⟨it, rfl, fl⟩ := seen_item s
  obtain ⟨_, _, f, -, -, hf, -⟩ := C74_layout h1 h2 0 b!"k" _ c hs it hc
  refine ⟨c, it, f, hc, hf, fl, ?_⟩
  have hv : it.value.len = 5 := by
    have := bytes_length ((use_working u).each (it, it.flat c.mem) (by simp [itemsOf])).1.value
    have e : it.value.bytes c.mem = b!"hello" := congrArg Item.value fl
    rw [e] at this
    exact this.symm
  obtain ⟨e, -⟩ := C74_flags_over_value h1 h2 0 0 b!"k" _ c hs it hc (by rw [fresh_all]; rfl) f hf b!"X" (by rw [hv]; decide)
  rw [e, fl]
  rfl

end Mem
end Verif
