import Verif.Lemmas.ServerMem
import Verif.Props.Result
/-!
C78: the requests handed to a handler belong to it.
-/

namespace Verif
namespace Mem
open Props Spec

/-- What somebody looking at memory sees of the outcome of reading a request. -/
def seenReq (m : Memory) (r : Res (Verif.Srv.Protocol × Srv.MRequest)) : Res (Verif.Srv.Protocol × Verif.Srv.Request) :=
  r.map fun x => (x.1, x.2.seen m)

theorem readRequest_spec (p : Option Verif.Srv.Protocol) (c : MSock) (h : Sound c) :
    seenReq (Srv.readRequest p c).2.mem (Srv.readRequest p c).1 = (Verif.Srv.readRequest p c.sock.all).1
      ∧ (Srv.readRequest p c).2.sock.all = (Verif.Srv.readRequest p c.sock.all).2
      ∧ Ok c.arr c.hdr (Srv.readRequest p c).2
      ∧ Frame c.arr c.hdr c.mem (Srv.readRequest p c).2.mem
      ∧ ∀ x, (Srv.readRequest p c).1 = .ok x → ∃ v, GivesReq c.arr c.hdr c.mem.length v x.2 (Srv.readRequest p c).2.mem := by
  have hok := sound_ok h
  obtain ⟨h1, h2, h3, h4⟩ := msim_readRequest c.mem.length p c hok (Nat.le_refl _)
  obtain ⟨s1, s2⟩ := sim_readRequest p c.sock (by rw [hok.buf]; have := h.w; omega)
  refine ⟨?_, ?_, h2, h3, fun x hx => ?_⟩
  · rw [s1]
    dsimp only
    revert h4
    cases (Seg.Srv.readRequest p c.sock).1 <;> cases (Srv.readRequest p c).1 <;> intro h4 <;> first | exact h4.elim | skip
    · obtain ⟨e1, e2⟩ := h4
      exact congrArg Res.ok (Prod.ext e1.symm e2.seen)
    · exact congrArg Res.err (Eq.symm h4)
    · rfl
  · rw [s1, h1]
  · rw [hx] at h4
    revert h4
    cases (Seg.Srv.readRequest p c.sock).1 <;> intro h4 <;> first | exact h4.elim | skip
    exact ⟨_, h4.2⟩

/-- **C78 (one request).** What a handler finds in memory is what the bytes of the stream say, however they come in.
`Flags` and `Value` of the request lie in arrays of their own, made for this request, and of the memory that was there
only the buffer of this connection has changed. -/
theorem C78_request (p : Option Verif.Srv.Protocol) (c : MSock) (h : Sound c) :
    seenReq (Srv.readRequest p c).2.mem (Srv.readRequest p c).1 = (Verif.Srv.readRequest p c.sock.all).1
      ∧ (Srv.readRequest p c).2.sock.all = (Verif.Srv.readRequest p c.sock.all).2
      ∧ (∀ a, a < c.mem.length → a ≠ c.arr → a ≠ c.hdr → array (Srv.readRequest p c).2.mem a = array c.mem a)
      ∧ ∀ x, (Srv.readRequest p c).1 = .ok x →
        (∀ s ∈ slicesOf x.2, c.mem.length ≤ s.arr ∧ s.Valid (Srv.readRequest p c).2.mem) ∧ (arraysOf x.2).Nodup := by
  obtain ⟨h1, h2, h3, h4, h5⟩ := readRequest_spec p c h
  refine ⟨h1, h2, h4.same, fun x hx => ?_⟩
  obtain ⟨v, hv⟩ := h5 x hx
  exact ⟨fun s hs => ⟨(hv.arrs _ (List.mem_map.2 ⟨s, hs, rfl⟩)).1, hv.valid s hs⟩, hv.apart⟩

/-! ### A server at work -/

/-- All slices of requests handed over. -/
def allSlices (o : Office) : List Slice := o.given.flatMap fun g => slicesOf g.2.1

/-- What holds of a server at work. -/
structure InOrder (o : Office) : Prop where
  sound : ∀ i k, o.links i = some k → Sound (o.at k)
  lone : ∀ i j k l, o.links i = some k → o.links j = some l → i ≠ j →
    (k.sock.arr ≠ l.sock.arr ∧ k.sock.arr ≠ l.sock.hdr) ∧ k.sock.hdr ≠ l.sock.arr ∧ k.sock.hdr ≠ l.sock.hdr
  valid : ∀ s ∈ allSlices o, s.Valid o.mem ∧ s.arr < o.mem.length
  off : ∀ s ∈ allSlices o, ∀ i k, o.links i = some k → s.arr ≠ k.sock.arr ∧ s.arr ≠ k.sock.hdr
  apart : ((allSlices o).map (·.arr)).Nodup
  kept : ∀ g ∈ o.given, Clean o g.2.1 → g.2.1.seen o.mem = g.2.2
  old : ∀ a pos n, (a, pos, n) ∈ o.dirty → a < o.mem.length
  four : ∀ g ∈ o.given, ∀ f, g.2.1.flags = some f → f.len = 4
  took : ∀ i k, o.links i = some k → Took none k.sent (o.from i) k.proto (o.at k).sock.all

theorem slice_mem {o : Office} {g : Nat × Srv.MRequest × Verif.Srv.Request} (hg : g ∈ o.given) {s : Slice}
    (hs : s ∈ slicesOf g.2.1) : s ∈ allSlices o := List.mem_flatMap.2 ⟨g, hg, hs⟩

theorem seen_congr {m m' : Memory} {q : Srv.MRequest} (h : ∀ s ∈ slicesOf q, s.bytes m' = s.bytes m) :
    q.seen m' = q.seen m := by
  unfold Srv.MRequest.seen
  have h1 : q.flags.map (·.bytes m') = q.flags.map (·.bytes m) := by
    cases hf : q.flags with
    | none => rfl
    | some f => simp only [Option.map_some]; rw [h f (by simp [slicesOf, hf])]
  have h2 : q.value.map (·.bytes m') = q.value.map (·.bytes m) := by
    cases hf : q.value with
    | none => rfl
    | some f => simp only [Option.map_some]; rw [h f (by simp [slicesOf, hf])]
  rw [h1, h2]

theorem valid_len {m m' : Memory} {s : Slice} (h : (array m' s.arr).length = (array m s.arr).length) (hv : s.Valid m) :
    s.Valid m' := ⟨hv.len, by rw [h]; exact hv.cap⟩

theorem sound_congr {c : MSock} {m' : Memory} (h : Sound c) (hl : c.mem.length ≤ m'.length)
    (ha : array m' c.arr = array c.mem c.arr) (hh : array m' c.hdr = array c.mem c.hdr) :
    Sound { c with mem := m' } ∧ ({ c with mem := m' } : MSock).sock = c.sock := by
  refine ⟨⟨h.ne, Nat.lt_of_lt_of_le h.arr hl, Nat.lt_of_lt_of_le h.hdr hl, ?_, ?_, h.rw, h.w⟩, ?_⟩
  · show (array m' c.arr).length = _; rw [ha]; exact h.buf
  · show (array m' c.hdr).length = _; rw [hh]; exact h.hbuf
  · simp only [MSock.sock]; rw [ha]

/-- Memory changes elsewhere than in requests and buffers of connections. -/
theorem InOrder.elsewhere {o : Office} (h : InOrder o) (m' : Memory) (links' : Nat → Option Link)
    (hsub : ∀ i k, links' i = some k → o.links i = some k) (hl : o.mem.length ≤ m'.length)
    (hs : ∀ s ∈ allSlices o, array m' s.arr = array o.mem s.arr)
    (hb : ∀ i k, links' i = some k → array m' k.sock.arr = array o.mem k.sock.arr ∧ array m' k.sock.hdr = array o.mem k.sock.hdr) :
    InOrder { o with mem := m', links := links' } := by
  refine ⟨fun i k hk => ?_, fun i j k l hk hl' => h.lone i j k l (hsub _ _ hk) (hsub _ _ hl'), fun s hs' => ?_,
    fun s hs' i k hk => h.off s hs' i k (hsub _ _ hk), h.apart, fun g hg hc => ?_,
    fun a pos n hd => Nat.lt_of_lt_of_le (h.old a pos n hd) hl, h.four, fun i k hk => ?_⟩
  · exact (sound_congr (h.sound i k (hsub _ _ hk)) hl (hb i k hk).1 (hb i k hk).2).1
  · obtain ⟨v1, v2⟩ := h.valid s hs'
    exact ⟨valid_len (by rw [hs s hs']) v1, Nat.lt_of_lt_of_le v2 hl⟩
  · show g.2.1.seen m' = _
    rw [seen_congr fun s hs' => bytes_congr (hs s (slice_mem hg hs'))]
    exact h.kept g hg hc
  · have e : ({ o with mem := m', links := links' } : Office).at k = { o.at k with mem := m' } := rfl
    rw [e, (sound_congr (h.sound i k (hsub _ _ hk)) hl (hb i k hk).1 (hb i k hk).2).2]
    exact h.took i k (hsub _ _ hk)

theorem bytes_write {m : Memory} {s : Slice} {a pos : Nat} {bs : Bytes} (ha : a < m.length)
    (hp : pos + bs.length ≤ (array m a).length) (hd : a = s.arr → pos + bs.length ≤ s.off ∨ s.off + s.len ≤ pos) :
    s.bytes (Mem.write m a pos bs) = s.bytes m := by
  by_cases e : s.arr = a
  · have hd := hd e.symm
    unfold Slice.bytes
    rw [e, write_same _ _ _ _ ha]
    refine list_ext fun i => ?_
    rw [List.getElem?_take, List.getElem?_take, List.getElem?_drop, List.getElem?_drop]
    split
    · rename_i hi
      unfold splice
      rw [List.append_assoc]
      by_cases hlt : s.off + i < pos
      · rw [List.getElem?_append_left (by rw [List.length_take]; omega), List.getElem?_take_of_lt hlt]
      · rw [List.getElem?_append_right (by rw [List.length_take]; omega), List.length_take,
          List.getElem?_append_right (by omega), List.getElem?_drop]
        congr 1
        omega
    · rfl
  · exact bytes_congr (write_other _ _ _ _ _ ha e)

theorem nodup_inj {l : List Slice} (h : (l.map (·.arr)).Nodup) {s t : Slice} (hs : s ∈ l) (ht : t ∈ l) (e : s.arr = t.arr) :
    s = t := by
  induction l with
  | nil => cases hs
  | cons a l ih =>
    rw [List.map_cons, List.nodup_cons] at h
    rcases List.mem_cons.1 hs with rfl | hs' <;> rcases List.mem_cons.1 ht with rfl | ht'
    · rfl
    · exact absurd (List.mem_map.2 ⟨t, ht', e.symm⟩) h.1
    · exact absurd (List.mem_map.2 ⟨s, hs', e⟩) h.1
    · exact ih h.2 hs' ht'

theorem setAt_eq {α : Type} (f : Nat → α) (i : Nat) (x : α) : setAt f i x i = x := if_pos rfl
theorem setAt_ne {α : Type} (f : Nat → α) {i j : Nat} (x : α) (h : j ≠ i) : setAt f i x j = f j := if_neg h

theorem array_append2 (m : Memory) (x y : Bytes) (a : Nat) (ha : a < m.length) : array (m ++ [x] ++ [y]) a = array m a := by
  rw [array_append _ _ _ (by simp; omega), array_append _ _ _ ha]

theorem serving_order {o : Office} (hs : Serving o) : InOrder o := by
  induction hs with
  | start =>
    exact ⟨fun i k hk => (by cases hk), fun i j k l hk => (by cases hk), fun s hs => (by cases hs), fun s hs => (by cases hs),
      List.nodup_nil, fun g hg => (by cases hg), fun a pos n hd => (by cases hd), fun g hg => (by cases hg),
      fun i k hk => (by cases hk)⟩
  | @accept o i net cuts hs hi hfresh ih =>
    have hlen : o.mem.length ≤ (o.mem ++ [List.replicate bufSize 0] ++ [List.replicate 24 0]).length := by simp
    have base := ih.elsewhere (o.mem ++ [List.replicate bufSize 0] ++ [List.replicate 24 0]) o.links (fun _ _ h => h) hlen
      (fun s hs => array_append2 _ _ _ _ (ih.valid s hs).2)
      (fun j k hk => ⟨array_append2 _ _ _ _ (ih.sound j k hk).arr, array_append2 _ _ _ _ (ih.sound j k hk).hdr⟩)
    have hnew : ∀ j k, setAt o.links i (some ⟨⟨[], o.mem.length, o.mem.length + 1, 0, 0, net, cuts, 0⟩, none, net⟩) j = some k →
        (j = i ∧ k = ⟨⟨[], o.mem.length, o.mem.length + 1, 0, 0, net, cuts, 0⟩, none, net⟩) ∨ (j ≠ i ∧ o.links j = some k) := by
      intro j k hk
      by_cases e : j = i
      · subst e; rw [setAt_eq] at hk; exact .inl ⟨rfl, (Option.some.inj hk).symm⟩
      · rw [setAt_ne _ _ e] at hk; exact .inr ⟨e, hk⟩
    have e1 : array (o.mem ++ [List.replicate bufSize 0] ++ [List.replicate 24 0]) o.mem.length = List.replicate bufSize (0 : UInt8) := by
      rw [array_append _ _ _ (by simp), array_new]
    have e2 : array (o.mem ++ [List.replicate bufSize 0] ++ [List.replicate 24 0]) (o.mem.length + 1) = List.replicate 24 (0 : UInt8) := by
      have := array_new (o.mem ++ [List.replicate bufSize 0]) (List.replicate 24 (0 : UInt8))
      rwa [show (o.mem ++ [List.replicate bufSize (0 : UInt8)]).length = o.mem.length + 1 by simp] at this
    refine ⟨fun j k hk => ?_, fun j j' k l hk hl hne => ?_, base.valid, fun s hs j k hk => ?_, base.apart, base.kept, base.old,
      base.four, fun j k hk => ?_⟩
    · rcases hnew j k hk with ⟨rfl, rfl⟩ | ⟨hj, hk'⟩
      · refine ⟨by show o.mem.length ≠ o.mem.length + 1; omega, ?_, ?_, ?_, ?_, Nat.le_refl _, Nat.zero_le _⟩
        · show o.mem.length < (o.mem ++ [List.replicate bufSize 0] ++ [List.replicate 24 0]).length; simp
        · show o.mem.length + 1 < (o.mem ++ [List.replicate bufSize 0] ++ [List.replicate 24 0]).length; simp
        · show (array (o.mem ++ [List.replicate bufSize 0] ++ [List.replicate 24 0]) o.mem.length).length = _
          rw [e1, List.length_replicate]
        · show (array (o.mem ++ [List.replicate bufSize 0] ++ [List.replicate 24 0]) (o.mem.length + 1)).length = _
          rw [e2, List.length_replicate]
      · exact base.sound j k hk'
    · rcases hnew j k hk with ⟨rfl, rfl⟩ | ⟨hj, hk'⟩ <;> rcases hnew j' l hl with ⟨rfl, rfl⟩ | ⟨hj', hl'⟩
      · exact absurd rfl hne
      · have a1 := (ih.sound j' l hl').arr
        have a2 := (ih.sound j' l hl').hdr
        have a1' : l.sock.arr < o.mem.length := a1
        have a2' : l.sock.hdr < o.mem.length := a2
        simp only
        omega
      · have a1' : k.sock.arr < o.mem.length := (ih.sound j k hk').arr
        have a2' : k.sock.hdr < o.mem.length := (ih.sound j k hk').hdr
        simp only
        omega
      · exact base.lone j j' k l hk' hl' hne
    · rcases hnew j k hk with ⟨rfl, rfl⟩ | ⟨hj, hk'⟩
      · have := (ih.valid s hs).2
        simp only
        omega
      · exact base.off s hs j k hk'
    · rcases hnew j k hk with ⟨rfl, rfl⟩ | ⟨hj, hk'⟩
      · have e : ({ o with mem := o.mem ++ [List.replicate bufSize 0] ++ [List.replicate 24 0], links := setAt o.links j (some ⟨⟨[], o.mem.length, o.mem.length + 1, 0, 0, net, cuts, 0⟩, none, net⟩) } : Office).from j = [] := by
          show (o.given.filter (·.1 == j)).map (·.2.2) = []
          have : o.given.filter (·.1 == j) = [] := by
            rw [List.filter_eq_nil_iff]
            intro g hg
            simpa using hfresh g hg
          rw [this]; rfl
        rw [e]
        have e' : (({ o with mem := o.mem ++ [List.replicate bufSize 0] ++ [List.replicate 24 0], links := setAt o.links j (some ⟨⟨[], o.mem.length, o.mem.length + 1, 0, 0, net, cuts, 0⟩, none, net⟩) } : Office).at ⟨⟨[], o.mem.length, o.mem.length + 1, 0, 0, net, cuts, 0⟩, none, net⟩).sock.all = net := by
          simp [Office.at, MSock.sock, Sock.all]
        rw [e']
        exact .none _ _
      · exact base.took j k hk'
  | @request o i k p q c hs hk hr ih =>
    have hsound := ih.sound i k hk
    obtain ⟨r1, r2, r3, r4, r5⟩ := readRequest_spec k.proto (o.at k) hsound
    rw [hr] at r1 r2 r3 r4 r5
    obtain ⟨v, hv⟩ := r5 (p, q) rfl
    have hfr : ∀ a, a < o.mem.length → a ≠ k.sock.arr → a ≠ k.sock.hdr → array c.mem a = array o.mem a := r4.same
    have hlen : o.mem.length ≤ c.mem.length := r4.len
    have carr : c.arr = k.sock.arr := r3.arr
    have chdr : c.hdr = k.sock.hdr := r3.hdr
    have base := ih.elsewhere c.mem (setAt o.links i none) (fun j l hl => by
        by_cases e : j = i
        · subst e; rw [setAt_eq] at hl; cases hl
        · rwa [setAt_ne _ _ e] at hl) hlen
      (fun s hs => hfr _ (ih.valid s hs).2 (ih.off s hs i k hk).1 (ih.off s hs i k hk).2)
      (fun j l hl => by
        by_cases e : j = i
        · subst e; rw [setAt_eq] at hl; cases hl
        · rw [setAt_ne _ _ e] at hl
          obtain ⟨⟨n1, n2⟩, n3, n4⟩ := ih.lone j i l k hl hk e
          exact ⟨hfr _ (ih.sound j l hl).arr n1 n2, hfr _ (ih.sound j l hl).hdr n3 n4⟩)
    have hnew : ∀ j l, setAt o.links i (some ⟨c, some p, k.sent⟩) j = some l →
        (j = i ∧ l = ⟨c, some p, k.sent⟩) ∨ (j ≠ i ∧ o.links j = some l ∧ setAt o.links i none j = some l) := by
      intro j l hl
      by_cases e : j = i
      · subst e; rw [setAt_eq] at hl; exact .inl ⟨rfl, (Option.some.inj hl).symm⟩
      · rw [setAt_ne _ _ e] at hl; exact .inr ⟨e, hl, by rw [setAt_ne _ _ e]; exact hl⟩
    have hall : allSlices { o with mem := c.mem, links := setAt o.links i (some ⟨c, some p, k.sent⟩), given := o.given ++ [(i, q, q.seen c.mem)] }
        = allSlices o ++ slicesOf q := by simp [allSlices]
    refine ⟨fun j l hl => ?_, fun j j' l l' hl hl' hne => ?_, fun s hs => ?_, fun s hs j l hl => ?_, ?_, fun g hg hc => ?_,
      base.old, fun g hg => ?_, fun j l hl => ?_⟩
    · rcases hnew j l hl with ⟨rfl, rfl⟩ | ⟨hj, _, hl'⟩
      · exact ok_sound r3
      · exact base.sound j l hl'
    · rcases hnew j l hl with ⟨rfl, rfl⟩ | ⟨hj, ha, _⟩ <;> rcases hnew j' l' hl' with ⟨rfl, rfl⟩ | ⟨hj', hb, _⟩
      · exact absurd rfl hne
      · simp only [carr, chdr]; exact ih.lone j j' k l' hk hb hne
      · simp only [carr, chdr]; exact ih.lone j j' l k ha hk hne
      · exact ih.lone j j' l l' ha hb hne
    · rw [hall, List.mem_append] at hs
      rcases hs with hs | hs
      · exact base.valid s hs
      · exact ⟨hv.valid s hs, (hv.arrs _ (List.mem_map.2 ⟨s, hs, rfl⟩)).2.1⟩
    · rw [hall, List.mem_append] at hs
      rcases hs with hs | hs
      · rcases hnew j l hl with ⟨rfl, rfl⟩ | ⟨hj, ha, _⟩
        · simp only [carr, chdr]; exact ih.off s hs j k hk
        · exact ih.off s hs j l ha
      · have hx := hv.arrs _ (List.mem_map.2 ⟨s, hs, rfl⟩)
        rcases hnew j l hl with ⟨rfl, rfl⟩ | ⟨hj, ha, _⟩
        · simp only [carr, chdr]; exact hx.2.2
        · have n1 : l.sock.arr < o.mem.length := (ih.sound j l ha).arr
          have n2 : l.sock.hdr < o.mem.length := (ih.sound j l ha).hdr
          have n3 : o.mem.length ≤ s.arr := hx.1
          omega
    · rw [hall, List.map_append, List.nodup_append]
      refine ⟨ih.apart, hv.apart, fun a ha b hb => ?_⟩
      obtain ⟨s, hs, rfl⟩ := List.mem_map.1 ha
      have n1 := (ih.valid s hs).2
      have n3 : o.mem.length ≤ b := (hv.arrs b hb).1
      omega
    · rcases List.mem_append.1 hg with hg | hg
      · exact base.kept g hg hc
      · rw [List.mem_singleton.1 hg]
    · rcases List.mem_append.1 hg with hg | hg
      · exact ih.four g hg
      · rw [List.mem_singleton.1 hg]; exact hv.four
    · have hfrom : ∀ j, ({ o with mem := c.mem, links := setAt o.links i (some ⟨c, some p, k.sent⟩), given := o.given ++ [(i, q, q.seen c.mem)] } : Office).from j
          = o.from j ++ if i = j then [q.seen c.mem] else [] := by
        intro j
        show ((o.given ++ [(i, q, q.seen c.mem)]).filter (·.1 == j)).map (·.2.2) = _
        rw [List.filter_append, List.map_append]
        by_cases e : i = j
        · subst e; simp [Office.from]
        · simp [Office.from, e]
      rcases hnew j l hl with ⟨rfl, rfl⟩ | ⟨hj, ha, hl'⟩
      · rw [hfrom, if_pos rfl]
        have r2' : c.sock.all = (Verif.Srv.readRequest k.proto (o.at k).sock.all).2 := r2
        have r1' : Res.ok (p, q.seen c.mem) = (Verif.Srv.readRequest k.proto (o.at k).sock.all).1 := r1
        exact .more (ih.took j k hk) (Prod.ext r1'.symm r2'.symm)
      · rw [hfrom, if_neg (Ne.symm hj), List.append_nil]
        exact base.took j l hl'
  | @gone o i k r c hs hk hr hne ih =>
    have hsound := ih.sound i k hk
    obtain ⟨r1, r2, r3, r4, r5⟩ := readRequest_spec k.proto (o.at k) hsound
    rw [hr] at r1 r2 r3 r4 r5
    have hfr : ∀ a, a < o.mem.length → a ≠ k.sock.arr → a ≠ k.sock.hdr → array c.mem a = array o.mem a := r4.same
    exact ih.elsewhere c.mem (setAt o.links i none) (fun j l hl => by
        by_cases e : j = i
        · subst e; rw [setAt_eq] at hl; cases hl
        · rwa [setAt_ne _ _ e] at hl) r4.len
      (fun s hs => hfr _ (ih.valid s hs).2 (ih.off s hs i k hk).1 (ih.off s hs i k hk).2)
      (fun j l hl => by
        by_cases e : j = i
        · subst e; rw [setAt_eq] at hl; cases hl
        · rw [setAt_ne _ _ e] at hl
          obtain ⟨⟨n1, n2⟩, n3, n4⟩ := ih.lone j i l k hl hk e
          exact ⟨hfr _ (ih.sound j l hl).arr n1 n2, hfr _ (ih.sound j l hl).hdr n3 n4⟩)
  | @make o bs hs ih =>
    exact ih.elsewhere (o.mem ++ [bs]) o.links (fun _ _ h => h) (by simp) (fun s hs => array_append _ _ _ (ih.valid s hs).2)
      (fun j k hk => ⟨array_append _ _ _ (ih.sound j k hk).arr, array_append _ _ _ (ih.sound j k hk).hdr⟩)
  | @write o a pos bs hs ha hp hb ih =>
    have hlen : (Mem.write o.mem a pos bs).length = o.mem.length := write_len _ _ _ _
    have hal : ∀ x, (array (Mem.write o.mem a pos bs) x).length = (array o.mem x).length :=
      fun x => (only_write o.mem a pos bs ha hp).lens x
    have key : ∀ i k, o.links i = some k → Sound { o.at k with mem := Mem.write o.mem a pos bs }
        ∧ ({ o.at k with mem := Mem.write o.mem a pos bs } : MSock).sock = (o.at k).sock := fun i k hk =>
      sound_congr (ih.sound i k hk) (Nat.le_of_eq hlen.symm) (write_other _ _ _ _ _ ha (Ne.symm (hb i k hk).1))
        (write_other _ _ _ _ _ ha (Ne.symm (hb i k hk).2))
    refine ⟨fun i k hk => (key i k hk).1, ih.lone, fun s hs => ?_, ih.off, ih.apart, fun g hg hc => ?_, fun a' pos' n hd => ?_,
      ih.four, fun i k hk => ?_⟩
    · obtain ⟨v1, v2⟩ := ih.valid s hs
      exact ⟨valid_len (hal _) v1, by show s.arr < (Mem.write o.mem a pos bs).length; rw [hlen]; exact v2⟩
    · show g.2.1.seen (Mem.write o.mem a pos bs) = _
      rw [seen_congr fun s hs => bytes_write ha hp (hc s hs a pos bs.length (by simp))]
      exact ih.kept g hg fun s hs a' p' n' hd => hc s hs a' p' n' (List.mem_cons_of_mem _ hd)
    · show a' < (Mem.write o.mem a pos bs).length
      rw [hlen]
      rcases List.mem_cons.1 hd with e | hd
      · cases e; exact ha
      · exact ih.old a' pos' n hd
    · have e : ({ o with mem := Mem.write o.mem a pos bs, dirty := (a, pos, bs.length) :: o.dirty } : Office).at k
          = { o.at k with mem := Mem.write o.mem a pos bs } := rfl
      rw [e, (key i k hk).2]
      exact ih.took i k hk

/-- **C78 (requests stay what they are).** A request handed to the handler keeps its contents for ever, whatever is read
on this or other connections later and whatever is done with other requests, unless somebody writes into its bytes. -/
theorem C78_kept {o : Office} (hs : Serving o) {i : Nat} {q : Srv.MRequest} {v : Verif.Srv.Request} (hg : (i, q, v) ∈ o.given)
    (hc : Clean o q) : q.seen o.mem = v := (serving_order hs).kept _ hg hc

/-- **C78 (no two requests share memory).** `Flags` and `Value` of all requests handed over, of all connections, lie in
different arrays, none of which is a buffer a connection reads into. -/
theorem C78_apart {o : Office} (hs : Serving o) : (o.given.flatMap fun g => arraysOf g.2.1).Nodup
    ∧ ∀ g ∈ o.given, ∀ a ∈ arraysOf g.2.1, ∀ i k, o.links i = some k → a ≠ k.sock.arr := by
  have h := serving_order hs
  refine ⟨?_, fun g hg a ha i k hk => ?_⟩
  · have := h.apart
    rwa [allSlices, List.map_flatMap] at this
  · obtain ⟨s, hs, rfl⟩ := List.mem_map.1 ha
    exact (h.off s (slice_mem hg hs) i k hk).1

/-- **C78 (handlers cannot disturb the server).** Whatever handlers write into the requests they have been given, the
requests handed over from a connection are the first ones of what its client sent, in order, and what has not been
consumed is the rest of it. -/
theorem C78_stream {o : Office} (hs : Serving o) {i : Nat} {k : Link} (hk : o.links i = some k) :
    Took none k.sent (o.from i) k.proto (o.at k).sock.all := (serving_order hs).took i k hk

/-- **C78 (append).** A handler may append to a slice of a request: no byte of any request changes. -/
theorem C78_append {o : Office} (hs : Serving o) {i : Nat} {q : Srv.MRequest} {v : Verif.Srv.Request}
    (hg : (i, q, v) ∈ o.given) {s : Slice} (hq : s ∈ slicesOf q) (bs : Bytes) (grow : Nat) :
    ∃ o', Serving o' ∧ o'.mem = (goAppend o.mem s bs grow).1 ∧ o'.given = o.given ∧ o'.links = o.links
      ∧ ∀ g ∈ o.given, (Clean o' g.2.1 ↔ Clean o g.2.1) ∧ g.2.1.seen o'.mem = g.2.1.seen o.mem := by
  have h := serving_order hs
  have hm := slice_mem hg hq
  obtain ⟨v1, v2⟩ := h.valid s hm
  unfold goAppend
  by_cases hc : s.len + bs.length ≤ s.cap
  · rw [if_pos hc]
    have hp : s.off + s.len + bs.length ≤ (array o.mem s.arr).length := by have := v1.cap; omega
    refine ⟨_, Serving.write s.arr (s.off + s.len) bs hs v2 hp (h.off s hm), rfl, rfl, rfl, fun g hgg => ⟨⟨fun hcl => ?_, fun hcl => ?_⟩, ?_⟩⟩
    · exact fun t ht a p n hd => hcl t ht a p n (List.mem_cons_of_mem _ hd)
    · intro t ht a p n hd e
      rcases List.mem_cons.1 hd with e' | hd
      · cases e'
        have := nodup_inj h.apart hm (slice_mem hgg ht) e
        subst this
        exact .inr (Nat.le_refl _)
      · exact hcl t ht a p n hd e
    · refine seen_congr fun t ht => bytes_write v2 hp fun e => ?_
      have := nodup_inj h.apart hm (slice_mem hgg ht) e
      subst this
      exact .inr (Nat.le_refl _)
  · rw [if_neg hc]
    exact ⟨_, Serving.make _ hs, rfl, rfl, rfl, fun g hgg => ⟨Iff.rfl, seen_congr fun t ht =>
      bytes_congr (array_append _ _ _ (h.valid t (slice_mem hgg ht)).2)⟩⟩

/-- **C78 (forwarding).** A handler that passes `Value` and `Flags` of a request on in a Set, as the router does, over any
protocol: the client sends what was in the request, and no byte of any request changes. -/
theorem C78_forward {o : Office} (hs : Serving o) {i : Nat} {q : Srv.MRequest} {v : Verif.Srv.Request}
    (hg : (i, q, v) ∈ o.given) (hc : Clean o q) {s : Slice} (hv : q.value = some s) (w : Wire) (grow : Nat) (e : Int) (cas : Nat) :
    (request w grow o.mem (.set (forwarded q s e cas))).2
        = (call w (.set { key := v.key, value := v.value, flags := v.flags, expiration := e, cas := cas })).wire
      ∧ ∀ g ∈ o.given, g.2.1.seen (request w grow o.mem (.set (forwarded q s e cas))).1 = g.2.1.seen o.mem := by
  have h := serving_order hs
  have hvm := slice_mem hg (s := s) (by simp [slicesOf, hv])
  have hval : (forwarded q s e cas).Valid o.mem :=
    ⟨(h.valid s hvm).1, fun f hf => (h.valid f (slice_mem hg (by simp [slicesOf, show q.flags = some f from hf]))).1⟩
  refine ⟨?_, fun g hgg => seen_congr fun t ht => ?_⟩
  · rw [C74_sends w grow o.mem (.set (forwarded q s e cas)) (fun it hi => by cases hi; exact hval)
      (fun _ _ _ it f hi hf => by cases hi; exact Nat.le_of_eq (h.four _ hg f hf).symm)]
    have hk : q.seen o.mem = v := h.kept _ hg hc
    have : (MOp.set (forwarded q s e cas)).seen o.mem
        = .set { key := v.key, value := v.value, flags := v.flags, expiration := e, cas := cas } := by
      rw [← hk]
      simp [MOp.seen, MItem.flat, forwarded, Srv.MRequest.seen, hv]
    rw [this]
  · have hm := request_effect w grow o.mem (.set (forwarded q s e cas)) fun it hi => by cases hi; exact hval
    obtain ⟨t1, t2⟩ := h.valid t (slice_mem hgg ht)
    unfold Slice.bytes
    refine list_ext fun j => ?_
    rw [List.getElem?_take, List.getElem?_take, List.getElem?_drop, List.getElem?_drop]
    split
    · rename_i hj
      refine (hm.2 t.arr t2).2 _ fun ⟨it, e1, _, e2, e3, e4⟩ => ?_
      cases e1
      have := nodup_inj h.apart (slice_mem hgg ht) hvm e2
      subst this
      simp only [forwarded] at e4
      omega
    · rfl

/-- The next request of the stream of a connection is read and handed over. -/
theorem serving_next {o : Office} (hs : Serving o) {i : Nat} {k : Link} (hk : o.links i = some k)
    {p : Verif.Srv.Protocol} {r : Verif.Srv.Request} {rest : Bytes}
    (hr : Verif.Srv.readRequest k.proto (o.at k).sock.all = (.ok (p, r), rest)) :
    ∃ o' q k', Serving o' ∧ o'.given = o.given ++ [(i, q, r)] ∧ o'.dirty = o.dirty ∧ o'.links i = some k'
      ∧ k'.proto = some p ∧ k'.sent = k.sent ∧ (o'.at k').sock.all = rest ∧ ∀ j, j ≠ i → o'.links j = o.links j := by
  obtain ⟨h1, h2, -, -, -⟩ := readRequest_spec k.proto (o.at k) ((serving_order hs).sound i k hk)
  rw [hr] at h1 h2
  cases hx : Srv.readRequest k.proto (o.at k) with
  | mk res c =>
    rw [hx] at h1 h2
    cases res with
    | err e => cases h1
    | panic => cases h1
    | ok x =>
      obtain ⟨p', q⟩ := x
      have e : (p', q.seen c.mem) = (p, r) := Res.ok.inj h1
      obtain ⟨e1, e2⟩ := Prod.mk.inj e
      have hstep := Serving.request i k p' q c hs hk hx
      subst e1
      refine ⟨_, q, ⟨c, some p', k.sent⟩, hstep, ?_, rfl, setAt_eq _ _ _, rfl, rfl, h2, fun j hj => setAt_ne _ _ hj⟩
      show o.given ++ [(i, q, q.seen c.mem)] = _
      rw [e2]

/-- **C78 (every stream is served).** On a new connection of any server at work, any requests the client's bytes begin
with are handed over, in pieces of any sizes; so the states the other theorems speak of are met. -/
theorem C78_served {o : Office} (hs : Serving o) {i : Nat} (hi : o.links i = none) (hg : ∀ g ∈ o.given, g.1 ≠ i)
    (net : Bytes) (cuts : Nat → Nat) {rs : List Verif.Srv.Request} {p : Option Verif.Srv.Protocol} {rest : Bytes}
    (ht : Took none net rs p rest) :
    ∃ o' k, Serving o' ∧ o'.links i = some k ∧ k.sent = net ∧ k.proto = p ∧ (o'.at k).sock.all = rest
      ∧ o'.from i = rs ∧ o'.dirty = o.dirty ∧ (∀ j, j ≠ i → o'.links j = o.links j)
      ∧ ∃ l, o'.given = o.given ++ l ∧ ∀ g ∈ l, g.1 = i := by
  induction ht with
  | none n =>
    refine ⟨_, _, Serving.accept i n cuts hs hi hg, setAt_eq _ _ _, rfl, rfl, ?_, ?_, rfl, fun j hj => setAt_ne _ _ hj, [], (List.append_nil _).symm, fun g hg => (by cases hg)⟩
    · simp [Office.at, MSock.sock, Sock.all]
    · have : o.given.filter (fun g => g.1 == i) = [] := List.filter_eq_nil_iff.2 fun g h => by simpa using hg g h
      show (o.given.filter (fun g => g.1 == i)).map (·.2.2) = []
      rw [this]; rfl
  | @more p' n rest rest' rs q r _ hr ih =>
    obtain ⟨o1, k, s1, s2, s3, s4, s5, s6, s7, s8, l, s9, s10⟩ := ih
    rw [← s4, ← s5] at hr
    obtain ⟨o2, q2, k2, t1, t2, t3, t4, t5, t6, t7, t8⟩ := serving_next s1 s2 hr
    refine ⟨o2, k2, t1, t4, t6.trans s3, t5, t7, ?_, t3.trans s7, fun j hj => (t8 j hj).trans (s8 j hj), l ++ [(i, q2, r)], ?_, fun g hg => ?_⟩
    · have : o2.from i = o1.from i ++ [r] := by simp [Office.from, t2]
      rw [this, s6]
    · rw [t2, s9, List.append_assoc]
    · rcases List.mem_append.1 hg with h | h
      · exact s10 g h
      · rw [List.mem_singleton.1 h]

/-- The two requests of the example below. -/
theorem took_two : Took none b!"set a 1 0 1\r\nx\r\nset b 2 0 2\r\nyz\r\nget a\r\n"
    [{ opcode := Verif.Srv.opSet, key := b!"a", flags := some [0, 0, 0, 1], value := b!"x", setOpt := some { expiration := 0 } },
     { opcode := Verif.Srv.opSet, key := b!"b", flags := some [0, 0, 0, 2], value := b!"yz", setOpt := some { expiration := 0 } }]
    (some .ascii) b!"get a\r\n" :=
  Took.more (rs := [_]) (rest := b!"set b 2 0 2\r\nyz\r\nget a\r\n") (p' := some .ascii)
    (Took.more (rs := []) (q := .ascii) (Took.none _ _) (by decide +kernel)) (by decide +kernel)

/-- **C78 (a case).** A client sends two text Sets; the handler overwrites the value of the first one.  The second request
is what it was, the first one is not, and the third request is still what the client sent. -/
theorem C78_concrete : ∃ o q1 q2 v1 v2 k, Serving o ∧ o.given = [(0, q1, v1), (0, q2, v2)]
    ∧ v1.value = b!"x" ∧ (q1.seen o.mem).value = b!"!" ∧ ¬ Clean o q1
    ∧ v2.value = b!"yz" ∧ Clean o q2 ∧ q2.seen o.mem = v2
    ∧ o.links 0 = some k ∧ (o.at k).sock.all = b!"get a\r\n" := by
  obtain ⟨o, k, s1, s2, s3, s4, s5, s6, s7, s8, l, s9, s10⟩ :=
    C78_served Serving.start (i := 0) rfl (fun g hg => by cases hg) _ (fun _ => 3) took_two
  have hl : o.given = l := s9
  have hf : o.given.filter (fun g => g.1 == 0) = o.given :=
    List.filter_eq_self.2 fun g hg => by rw [s10 g (hl ▸ hg)]; rfl
  unfold Office.from at s6
  rw [hf] at s6
  have hm := s6
  have hz : ∀ g ∈ o.given, g.1 = 0 := fun g hg => s10 g (hl ▸ hg)
  have hd : o.dirty = [] := s7
  have hh := serving_order s1
  rcases hgv : o.given with _ | ⟨⟨i1, q1, v1⟩, _ | ⟨⟨i2, q2, v2⟩, _ | ⟨g3, rest⟩⟩⟩ <;> rw [hgv] at hm <;>
    simp only [List.map_nil, List.map_cons, List.cons.injEq, reduceCtorEq, and_false, false_and, and_true] at hm
  obtain ⟨e1, e2⟩ := hm
  have m1 : (i1, q1, v1) ∈ o.given := by rw [hgv]; simp
  have m2 : (i2, q2, v2) ∈ o.given := by rw [hgv]; simp
  obtain rfl : i1 = 0 := hz _ m1
  obtain rfl : i2 = 0 := hz _ m2
  have c1 : q1.seen o.mem = v1 := C78_kept s1 m1 fun s _ a p n h => by rw [hd] at h; cases h
  have hv1 : v1.value = b!"x" := by rw [e1]
  have hv2 : v2.value = b!"yz" := by rw [e2]
  have hval : (q1.value.map (·.bytes o.mem)).getD [] = b!"x" := by rw [← hv1, ← c1]; rfl
  cases hq : q1.value with
  | none => rw [hq] at hval; cases hval
  | some s =>
    rw [hq] at hval
    have hsb : s.bytes o.mem = b!"x" := hval
    have hsm : s ∈ slicesOf q1 := by simp [slicesOf, hq]
    obtain ⟨w1, w2⟩ := hh.valid s (slice_mem m1 hsm)
    have hlen : s.len = 1 := by
      have := congrArg List.length hsb
      rw [Slice.bytes, List.length_take, List.length_drop] at this
      have h1 := w1.len; have h2 := w1.cap
      have h3 : (b!"x").length = 1 := rfl
      omega
    have hp : s.off + (b!"!").length ≤ (array o.mem s.arr).length := by
      have h1 := w1.len; have h2 := w1.cap
      have h3 : (b!"!").length = 1 := rfl
      omega
    have hst := Serving.write s.arr s.off b!"!" s1 w2 hp (hh.off s (slice_mem m1 hsm))
    have hne : ∀ t ∈ slicesOf q2, s.arr ≠ t.arr := by
      intro t ht e
      have := hh.apart
      rw [allSlices, hgv] at this
      simp only [List.flatMap_cons, List.flatMap_nil, List.append_nil, List.map_append] at this
      exact (List.nodup_append.1 this).2.2 _ (List.mem_map.2 ⟨s, hsm, rfl⟩) _ (List.mem_map.2 ⟨t, ht, rfl⟩) e
    have hcl : Clean { o with mem := Mem.write o.mem s.arr s.off b!"!", dirty := (s.arr, s.off, (b!"!").length) :: o.dirty } q2 := by
      intro t ht a p n h e
      rcases List.mem_cons.1 h with h | h
      · cases h; exact absurd e (hne t ht)
      · rw [hd] at h; cases h
    refine ⟨_, q1, q2, v1, v2, k, hst, hgv, hv1, ?_, ?_, hv2, hcl, C78_kept hst m2 hcl, s2, ?_⟩
    · show (q1.value.map (·.bytes (Mem.write o.mem s.arr s.off b!"!"))).getD [] = b!"!"
      rw [hq]
      show s.bytes (Mem.write o.mem s.arr s.off b!"!") = b!"!"
      rw [Slice.bytes, write_same _ _ _ _ w2, hlen, splice, List.append_assoc, List.drop_append_of_le_length
        (by rw [List.length_take]; omega), List.drop_of_length_le (by rw [List.length_take]; omega)]
      rfl
    · intro hc
      have := hc s hsm s.arr s.off 1 (by exact List.mem_cons_self) rfl
      omega
    · have := (sound_congr (hh.sound 0 k s2) (Nat.le_of_eq (write_len _ _ _ _).symm)
        (write_other o.mem s.arr _ s.off b!"!" w2 (Ne.symm (hh.off s (slice_mem m1 hsm) 0 k s2).1))
        (write_other o.mem s.arr _ s.off b!"!" w2 (Ne.symm (hh.off s (slice_mem m1 hsm) 0 k s2).2))).2
      exact (congrArg Sock.all this).trans s5

end Mem
end Verif
