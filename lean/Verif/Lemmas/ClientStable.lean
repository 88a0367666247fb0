import Verif.Go.Framing
import Verif.Mc.Session
import Verif.Client.Binary
/-!
Every operation of the three clients reads a reply whose end is determined by the bytes read:
`Stable`, and its unread rest is a suffix of the stream.
-/

namespace Verif
open Spec

theorem stable_text_get (name k : Bytes) : Stable (Text.get name k).rd := by
  show Stable (Text.getReply name)
  unfold Text.getReply
  framing

theorem stable_parseBlock (b : Bytes) : Stable (Text.parseBlock b) := by
  unfold Text.parseBlock
  framing
theorem suffix_parseBlock (b : Bytes) : Suffix (Text.parseBlock b) := by
  unfold Text.parseBlock
  framing

theorem stable_parseLoop (n : Nat) (acc : List Item) : Stable (Text.parseLoop n acc) := by
  induction n generalizing acc with
  | zero => exact stable_lift _
  | succ n ih =>
    unfold Text.parseLoop
    exact stable_readSlice.bind fun b => stable_ite (stable_pure _)
      ((stable_parseBlock b).bind fun item => ih _)

theorem readSlice_lt {i l r : Bytes} (h : readSlice i = (.ok l, r)) : r.length < i.length := by
  unfold readSlice at h
  cases hs : splitLine i with
  | none => simp only [hs] at h; split at h <;> simp at h
  | some q =>
    obtain ⟨l', r'⟩ := q
    simp only [hs] at h
    split at h
    · simp only [Prod.mk.injEq, Res.ok.injEq] at h
      obtain ⟨rfl, rfl⟩ := h
      obtain ⟨rfl, p, rfl, _⟩ := splitLine_some hs
      simp; omega
    · simp at h

/-- Enough fuel is enough. -/
theorem parseLoop_fuel (n m : Nat) (acc : List Item) (i : Bytes) (hn : i.length < n) (hm : i.length < m) :
    Text.parseLoop n acc i = Text.parseLoop m acc i := by
  induction n generalizing m acc i with
  | zero => omega
  | succ n ih =>
    obtain ⟨m, rfl⟩ : ∃ k, m = k + 1 := ⟨m - 1, by omega⟩
    unfold Text.parseLoop
    rw [Rd.bind_apply, Rd.bind_apply]
    cases hq : readSlice i with
    | mk x r =>
      cases x with
      | err e => rfl
      | panic => rfl
      | ok b =>
        have hlt := readSlice_lt hq
        simp only [Rd.ite_apply']
        split
        · rfl
        · rw [Rd.bind_apply, Rd.bind_apply]
          have hs := (suffix_parseBlock b).length_le r
          cases hp : Text.parseBlock b r with
          | mk y r2 =>
            rw [hp] at hs
            cases y with
            | err e => rfl
            | panic => rfl
            | ok item => exact ih m _ r2 (by simp at hs; omega) (by simp at hs; omega)

/-- A reader made of a loop with fuel. -/
theorem stable_loop {α : Type} {f : Nat → Rd α} (hs : ∀ n, Stable (f n))
    (hf : ∀ n m i, i.length < n → i.length < m → f n i = f m i) : Stable (fun i => f (i.length + 1) i) := by
  intro i t h
  dsimp only at h ⊢
  have e := hf (i.length + 1) ((i ++ t).length + 1) i (by omega) (by simp; omega)
  rw [e] at h ⊢
  exact hs _ i t h

theorem stable_text_getMulti (name : Bytes) (ks : List Bytes) : Stable (Text.getMulti name ks).rd := by
  show Stable (Text.parseGetResponse >>= _)
  refine Stable.bind ?_ (fun _ => stable_pure _)
  exact stable_loop (f := fun n => Text.parseLoop n []) (fun n => stable_parseLoop n [])
    (fun n m i => parseLoop_fuel n m [] i)

theorem stable_meta_parse : Stable Meta.parseGetResponse := by
  unfold Meta.parseGetResponse
  framing
theorem suffix_meta_parse : Suffix Meta.parseGetResponse := by
  unfold Meta.parseGetResponse
  framing

theorem meta_parse_lt {i r : Bytes} {a : Item} (h : Meta.parseGetResponse i = (.ok a, r)) : r.length < i.length := by
  have hu : Meta.parseGetResponse = (readSlice >>= fun b => if b = Meta.msgEnd then Rd.fail .itemNotFound
      else if b = Meta.msgNoop then Rd.fail .itemNotFound
      else if hasPrefix b b!"VA" = false then Rd.fail (.msg b!"memcached: invalid get response")
      else do
        let body ← Rd.lift (sliceFrom b 3)
        let st ← Rd.lift (Meta.hdrScan {} body)
        let buf ← readN (st.size + 2)
        let v ← Rd.lift (sliceTo buf st.size)
        pure { st.item with value := v }) := rfl
  rw [hu, Rd.bind_apply] at h
  cases hq : readSlice i with
  | mk x r' =>
    rw [hq] at h
    cases x with
    | err e => simp at h
    | panic => simp at h
    | ok b =>
      have hlt := readSlice_lt hq
      have hs : Suffix (if b = Meta.msgEnd then Rd.fail .itemNotFound
          else if b = Meta.msgNoop then Rd.fail .itemNotFound
          else if hasPrefix b b!"VA" = false then Rd.fail (.msg b!"memcached: invalid get response")
          else do
            let body ← Rd.lift (sliceFrom b 3)
            let st ← Rd.lift (Meta.hdrScan {} body)
            let buf ← readN (st.size + 2)
            let v ← Rd.lift (sliceTo buf st.size)
            pure { st.item with value := v } : Rd Item) := by framing
      have := hs.length_le r'
      simp only at h
      rw [h] at this
      simp at this; omega

theorem stable_meta_multiLoop (n : Nat) (acc : List Item) : Stable (Meta.multiLoop n acc) := by
  induction n generalizing acc with
  | zero => exact stable_lift _
  | succ n ih =>
    intro i t h
    rw [Meta.multiLoop] at h ⊢
    dsimp only at h ⊢
    have hs := stable_meta_parse i t
    cases hq : Meta.parseGetResponse i with
    | mk x r =>
      rw [hq] at h hs
      cases x with
      | ok item =>
        rw [hs (by simp)]
        exact ih _ r t h
      | panic =>
        rw [hs (by simp)]
      | err e =>
        cases e with
        | io => simp at h
        | bufferFull => rw [hs (by simp)]
        | num => rw [hs (by simp)]
        | scan => rw [hs (by simp)]
        | itemNotFound => rw [hs (by simp)]
        | itemExists => rw [hs (by simp)]
        | msg m => rw [hs (by simp)]

theorem meta_multiLoop_fuel (n m : Nat) (acc : List Item) (i : Bytes) (hn : i.length < n) (hm : i.length < m) :
    Meta.multiLoop n acc i = Meta.multiLoop m acc i := by
  induction n generalizing m acc i with
  | zero => omega
  | succ n ih =>
    obtain ⟨m, rfl⟩ : ∃ k, m = k + 1 := ⟨m - 1, by omega⟩
    unfold Meta.multiLoop
    cases hq : Meta.parseGetResponse i with
    | mk x r =>
      cases x with
      | ok item =>
        have := meta_parse_lt hq
        exact ih m _ r (by omega) (by omega)
      | err e => cases e <;> rfl
      | panic => rfl

theorem stable_meta_getMulti (ks : List Bytes) : Stable (Meta.getMulti ks).rd :=
  stable_loop (f := fun n => Meta.multiLoop n []) (fun n => stable_meta_multiLoop n [])
    (fun n m i => meta_multiLoop_fuel n m [] i)

theorem stable_readHdr : Stable Bin.readHdr := by
  unfold Bin.readHdr
  framing
theorem suffix_readHdr : Suffix Bin.readHdr := by
  unfold Bin.readHdr
  framing

theorem readHdr_lt {i r : Bytes} {a : Bin.ResHdr} (h : Bin.readHdr i = (.ok a, r)) : r.length < i.length := by
  unfold Bin.readHdr at h
  rw [Rd.bind_apply] at h
  by_cases hl : 24 ≤ i.length
  · have h1 : readFull 24 i = (.ok (i.take 24), i.drop 24) := by simp [readFull, hl]
    rw [h1] at h
    simp only [Rd.ite_apply', Rd.fail_apply, Rd.pure_apply] at h
    split at h
    · simp at h
    · simp only [Prod.mk.injEq] at h
      obtain ⟨_, rfl⟩ := h
      simp; omega
  · have h1 : readFull 24 i = (.err .io, []) := by simp [readFull, hl]
    rw [h1] at h
    simp at h

theorem stable_bin_multiLoop (n : Nat) (acc : List Item) : Stable (Bin.multiLoop n acc) := by
  induction n generalizing acc with
  | zero => exact stable_lift _
  | succ n ih =>
    unfold Bin.multiLoop
    refine stable_readHdr.bind fun q => stable_ite (stable_pure _) (stable_ite (stable_fail _) ?_)
    refine (stable_readFull _).bind fun buf => (stable_lift _).bind fun k => (stable_lift _).bind fun v =>
      (stable_lift _).bind fun f => ih _

theorem bin_multiLoop_fuel (n m : Nat) (acc : List Item) (i : Bytes) (hn : i.length < n) (hm : i.length < m) :
    Bin.multiLoop n acc i = Bin.multiLoop m acc i := by
  induction n generalizing m acc i with
  | zero => omega
  | succ n ih =>
    obtain ⟨m, rfl⟩ : ∃ k, m = k + 1 := ⟨m - 1, by omega⟩
    unfold Bin.multiLoop
    rw [Rd.bind_apply, Rd.bind_apply]
    cases hq : Bin.readHdr i with
    | mk x r =>
      cases x with
      | err e => rfl
      | panic => rfl
      | ok q =>
        have hlt := readHdr_lt hq
        simp only [Rd.ite_apply']
        split
        · rfl
        · split
          · rfl
          · rw [Rd.bind_apply, Rd.bind_apply]
            have hs := (suffix_readFull q.totalBodyLength).length_le r
            cases hp : readFull q.totalBodyLength r with
            | mk y r2 =>
              rw [hp] at hs
              simp only at hs
              cases y with
              | err e => rfl
              | panic => rfl
              | ok buf =>
                simp only [Rd.bind_apply, Rd.lift_apply]
                cases hk : slice buf q.extraLength q.valueStart with
                | err e => rfl
                | panic => rfl
                | ok k =>
                  simp only
                  cases hv : sliceFrom buf q.valueStart with
                  | err e => rfl
                  | panic => rfl
                  | ok v =>
                    simp only
                    cases hf : sliceTo buf q.extraLength with
                    | err e => rfl
                    | panic => rfl
                    | ok f => exact ih m _ r2 (by omega) (by omega)

theorem stable_bin_getMulti (h1 h2 : Bin.ReqHdr) (ks : List Bytes) : Stable (Bin.getMulti h1 h2 ks).rd :=
  stable_loop (f := fun n => Bin.multiLoop n []) (fun n => stable_bin_multiLoop n [])
    (fun n m i => bin_multiLoop_fuel n m [] i)

theorem Stable.map {α β : Type} {c : Call α} (h : Stable c.rd) (f : α → β) : Stable (c.map f).rd := by
  intro i t hi
  have hi' : (c.rd i).1 ≠ .err .io := by
    intro he
    apply hi
    show (c.rd i).1.map f = _
    rw [he]; rfl
  show ((c.rd (i ++ t)).1.map f, (c.rd (i ++ t)).2) = ((c.rd i).1.map f, (c.rd i).2 ++ t)
  rw [h i t hi']

theorem stable_line {α : Type} {f : Bytes → Rd α} (h : ∀ b, Stable (f b)) : Stable (readSlice >>= f) :=
  stable_readSlice.bind h

theorem stable_textCall (name : Bytes) (op : Op) : Stable (Mc.textCall name op).rd := by
  cases op with
  | get k => exact (stable_text_get name k).map _
  | getMulti ks => exact (stable_text_getMulti name ks).map _
  | set i => exact Stable.map (c := Text.set i) (stable_line fun b => by framing) _
  | add i => exact Stable.map (c := Text.add i) (stable_line fun b => by framing) _
  | replace i => exact Stable.map (c := Text.replace i) (stable_line fun b => by framing) _
  | delete k => exact Stable.map (c := Text.delete k) (stable_line fun b => by framing) _
  | increment k d e => exact Stable.map (c := Text.increment k d e) (stable_line fun b => by framing) _
  | decrement k d e => exact Stable.map (c := Text.decrement k d e) (stable_line fun b => by framing) _
  | touch k e => exact Stable.map (c := Text.touch k e) (stable_line fun b => by framing) _
  | flush => exact Stable.map (c := Text.flush) (stable_line fun b => by framing) _

theorem stable_metaCall (op : Op) : Stable (Mc.metaCall op).rd := by
  cases op with
  | get k =>
    refine Stable.map (c := Meta.get k) ?_ _
    show Stable (Meta.parseGetResponse >>= _)
    exact stable_meta_parse.bind fun _ => stable_pure _
  | getMulti ks => exact (stable_meta_getMulti ks).map _
  | set i => exact Stable.map (c := Meta.set i) (stable_line fun b => by framing) _
  | add i => exact Stable.map (c := Meta.add i) (stable_line fun b => by framing) _
  | replace i => exact Stable.map (c := Meta.replace i) (stable_line fun b => by framing) _
  | delete k => exact Stable.map (c := Meta.delete k) (stable_line fun b => by framing) _
  | increment k d e => exact Stable.map (c := Meta.increment k d e) (stable_line fun b => by framing) _
  | decrement k d e => exact Stable.map (c := Meta.decrement k d e) (stable_line fun b => by framing) _
  | touch k e => exact Stable.map (c := Meta.touch k e) (stable_line fun b => by framing) _
  | flush => exact Stable.map (c := Meta.flush) (stable_line fun b => by framing) _

theorem stable_hdr {α : Type} {f : Bin.ResHdr → Rd α} (h : ∀ q, Stable (f q)) : Stable (Bin.readHdr >>= f) :=
  stable_readHdr.bind h

theorem stable_bin_get (h : Bin.ReqHdr) (k : Bytes) : Stable (Bin.get h k).rd :=
  stable_hdr fun q => by framing

theorem stable_binCall (h1 h2 : Bin.ReqHdr) (op : Op) : Stable (Mc.binCall h1 h2 op).rd := by
  cases op with
  | get k => exact (stable_bin_get h1 k).map _
  | getMulti ks => exact (stable_bin_getMulti h1 h2 ks).map _
  | set i => exact Stable.map (c := Bin.set h1 i) (stable_hdr fun q => by framing) _
  | add i => exact Stable.map (c := Bin.add h1 i) (stable_hdr fun q => by framing) _
  | replace i => exact Stable.map (c := Bin.replace h1 i) (stable_hdr fun q => by framing) _
  | delete k => exact Stable.map (c := Bin.delete h1 k) (stable_hdr fun q => by framing) _
  | increment k d e => exact Stable.map (c := Bin.increment h1 k d e) (stable_hdr fun q => by framing) _
  | decrement k d e => exact Stable.map (c := Bin.decrement h1 k d e) (stable_hdr fun q => by framing) _
  | touch k e => exact Stable.map (c := Bin.touch h1 k e) (stable_hdr fun q => by framing) _
  | flush => exact Stable.map (c := Bin.flush h1) (stable_hdr fun q => by framing) _

theorem stable_text_version : Stable Text.version.rd := stable_line fun b => by framing
theorem stable_meta_version : Stable Meta.version.rd := stable_line fun b => by framing
theorem stable_bin_version (h : Bin.ReqHdr) : Stable (Bin.version h).rd := stable_hdr fun q => by framing

end Verif
