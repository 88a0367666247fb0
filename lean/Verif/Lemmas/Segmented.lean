import Verif.Client.Segmented
/-! Every reader on a buffered connection does what its version on the byte stream does. -/

namespace Verif
open Spec

theorem sim_text_get (name k : Bytes) : Sim (Text.get name k).rd (Seg.Text.get name k) := by
  show Sim (Text.getReply name) (Seg.Text.getReply name)
  unfold Text.getReply Seg.Text.getReply
  refine sim_readSlice.bind fun b => sim_ite (sim_fail _) (sim_ite (sim_fail _) ?_)
  cases Scan.scanValue (b.count 32 != 3) b with
  | none => exact sim_fail _
  | some q =>
    obtain ⟨key, flags, size, cas⟩ := q
    dsimp only
    simul

theorem sim_parseBlock (b : Bytes) : Sim (Text.parseBlock b) (Seg.Text.parseBlock b) := by
  unfold Text.parseBlock Seg.Text.parseBlock
  simul

theorem sim_parseLoop (n : Nat) (acc : List Item) : Sim (Text.parseLoop n acc) (Seg.Text.parseLoop n acc) := by
  induction n generalizing acc with
  | zero => exact sim_lift _
  | succ n ih =>
    unfold Text.parseLoop Seg.Text.parseLoop
    exact sim_readSlice.bind fun b => sim_ite (sim_pure _) ((sim_parseBlock b).bind fun item => ih _)

theorem sim_loop {α : Type} {f : Nat → Rd α} {g : Nat → Crd α} (h : ∀ n, Sim (f n) (g n)) :
    Sim (fun i => f (i.length + 1) i) (fun c => g (c.all.length + 1) c) := fun c hc => h _ c hc

theorem sim_text_getMulti (name : Bytes) (ks : List Bytes) :
    Sim (Text.getMulti name ks).rd (Seg.Text.getMulti name ks) :=
  Sim.bind (sim_loop (f := fun n => Text.parseLoop n []) (g := fun n => Seg.Text.parseLoop n [])
    fun n => sim_parseLoop n []) fun _ => sim_pure _

theorem sim_meta_parse : Sim Meta.parseGetResponse Seg.Meta.parseGetResponse := by
  unfold Meta.parseGetResponse Seg.Meta.parseGetResponse
  simul

theorem sim_meta_multiLoop (n : Nat) (acc : List Item) : Sim (Meta.multiLoop n acc) (Seg.Meta.multiLoop n acc) := by
  induction n generalizing acc with
  | zero => exact sim_lift _
  | succ n ih =>
    intro c hc
    obtain ⟨h1, h2⟩ := sim_meta_parse c hc
    unfold Meta.multiLoop Seg.Meta.multiLoop
    rw [h1]
    cases hx : Seg.Meta.parseGetResponse c with
    | mk r c' =>
      rw [hx] at h2
      cases r with
      | ok item => exact ih _ c' h2
      | err e => cases e <;> exact ⟨rfl, h2⟩
      | panic => exact ⟨rfl, h2⟩

theorem sim_meta_getMulti (ks : List Bytes) : Sim (Meta.getMulti ks).rd (Seg.Meta.getMulti ks) :=
  sim_loop (f := fun n => Meta.multiLoop n []) (g := fun n => Seg.Meta.multiLoop n []) fun n => sim_meta_multiLoop n []

theorem sim_readHdr : Sim Bin.readHdr Seg.Bin.readHdr := by
  unfold Bin.readHdr Seg.Bin.readHdr
  simul

theorem sim_bin_multiLoop (n : Nat) (acc : List Item) : Sim (Bin.multiLoop n acc) (Seg.Bin.multiLoop n acc) := by
  induction n generalizing acc with
  | zero => exact sim_lift _
  | succ n ih =>
    unfold Bin.multiLoop Seg.Bin.multiLoop
    refine sim_readHdr.bind fun q => sim_ite (sim_pure _) (sim_ite (sim_fail _) ?_)
    exact (sim_readFull _).bind fun buf => (sim_lift _).bind fun k => (sim_lift _).bind fun v =>
      (sim_lift _).bind fun f => ih _

theorem sim_bin_getMulti (h1 h2 : Bin.ReqHdr) (ks : List Bytes) :
    Sim (Bin.getMulti h1 h2 ks).rd (Seg.Bin.getMulti h1 h2 ks) :=
  sim_loop (f := fun n => Bin.multiLoop n []) (g := fun n => Seg.Bin.multiLoop n []) fun n => sim_bin_multiLoop n []

theorem sim_map {α β : Type} {c : Call α} {x : Crd α} (h : Sim c.rd x) (f : α → β) : Sim (c.map f).rd (Seg.map f x) := by
  intro s hs
  obtain ⟨h1, h2⟩ := h s hs
  refine ⟨?_, h2⟩
  show ((c.rd s.all).1.map f, (c.rd s.all).2) = _
  rw [h1]; rfl

theorem sim_line {α : Type} {f : Bytes → Rd α} {g : Bytes → Crd α} (h : ∀ b, Sim (f b) (g b)) :
    Sim (readSlice >>= f) (Bufio.readSlice >>= g) := sim_readSlice.bind h

theorem sim_hdr {α : Type} {f : Bin.ResHdr → Rd α} {g : Bin.ResHdr → Crd α} (h : ∀ b, Sim (f b) (g b)) :
    Sim (Bin.readHdr >>= f) (Seg.Bin.readHdr >>= g) := sim_readHdr.bind h

theorem sim_textCall (name : Bytes) (op : Op) : Sim (Mc.textCall name op).rd (Seg.textRd name op) := by
  cases op with
  | get k => exact sim_map (sim_text_get name k) _
  | getMulti ks => exact sim_map (sim_text_getMulti name ks) _
  | set i => exact sim_map (c := Text.set i) (sim_line fun b => by simul) _
  | add i => exact sim_map (c := Text.add i) (sim_line fun b => by simul) _
  | replace i => exact sim_map (c := Text.replace i) (sim_line fun b => by simul) _
  | delete k => exact sim_map (c := Text.delete k) (sim_line fun b => by simul) _
  | increment k d e => exact sim_map (c := Text.increment k d e) (sim_line fun b => by simul) _
  | decrement k d e => exact sim_map (c := Text.decrement k d e) (sim_line fun b => by simul) _
  | touch k e => exact sim_map (c := Text.touch k e) (sim_line fun b => by simul) _
  | flush => exact sim_map (c := Text.flush) (sim_line fun b => by simul) _

theorem sim_metaCall (op : Op) : Sim (Mc.metaCall op).rd (Seg.metaRd op) := by
  cases op with
  | get k => exact sim_map (c := Meta.get k) (sim_meta_parse.bind fun _ => sim_pure _) _
  | getMulti ks => exact sim_map (sim_meta_getMulti ks) _
  | set i => exact sim_map (c := Meta.set i) (sim_line fun b => by simul) _
  | add i => exact sim_map (c := Meta.add i) (sim_line fun b => by simul) _
  | replace i => exact sim_map (c := Meta.replace i) (sim_line fun b => by simul) _
  | delete k => exact sim_map (c := Meta.delete k) (sim_line fun b => by simul) _
  | increment k d e => exact sim_map (c := Meta.increment k d e) (sim_line fun b => by simul) _
  | decrement k d e => exact sim_map (c := Meta.decrement k d e) (sim_line fun b => by simul) _
  | touch k e => exact sim_map (c := Meta.touch k e) (sim_line fun b => by simul) _
  | flush => exact sim_map (c := Meta.flush) (sim_line fun b => by simul) _

theorem sim_bin_incrOrDecr (h : Bin.ReqHdr) (o : UInt8) (k : Bytes) (d e : Int) :
    Sim (Bin.incrOrDecr h o k d e).rd (Seg.Bin.incrOrDecr h o k d e) := by
  refine sim_hdr fun q => sim_ite (sim_fail _) ((sim_readFull _).bind fun body => sim_ite ?_ (by simul))
  cases Bin.binaryStatus.lookup q.status with
  | none => exact sim_fail _
  | some v => exact sim_fail _

theorem sim_binCall (h1 h2 : Bin.ReqHdr) (op : Op) : Sim (Mc.binCall h1 h2 op).rd (Seg.binRd h1 h2 op) := by
  cases op with
  | get k => exact sim_map (c := Bin.get h1 k) (sim_hdr fun q => by simul) _
  | getMulti ks => exact sim_map (sim_bin_getMulti h1 h2 ks) _
  | set i => exact sim_map (c := Bin.set h1 i) (sim_hdr fun q => by simul) _
  | add i => exact sim_map (c := Bin.add h1 i) (sim_hdr fun q => by simul) _
  | replace i => exact sim_map (c := Bin.replace h1 i) (sim_hdr fun q => by simul) _
  | delete k => exact sim_map (c := Bin.delete h1 k) (sim_hdr fun q => by simul) _
  | increment k d e => exact sim_map (sim_bin_incrOrDecr h1 _ k d e) _
  | decrement k d e => exact sim_map (sim_bin_incrOrDecr h1 _ k d e) _
  | touch k e => exact sim_map (c := Bin.touch h1 k e) (sim_hdr fun q => by simul) _
  | flush => exact sim_map (c := Bin.flush h1) (sim_hdr fun q => by simul) _

theorem sim_text_version : Sim Text.version.rd Seg.Text.version := sim_line fun b => by simul
theorem sim_meta_version : Sim Meta.version.rd Seg.Meta.version := sim_line fun b => by simul
theorem sim_bin_version (h : Bin.ReqHdr) : Sim (Bin.version h).rd (Seg.Bin.version h) := sim_hdr fun q => by simul

theorem sim_readStore (op : UInt8) (s : List Bytes) : Sim (Srv.readStore op s) (Seg.Srv.readStore op s) := by
  rcases s with _ | ⟨a, _ | ⟨b, _ | ⟨c, _ | ⟨d, _ | ⟨e, _ | ⟨f, s⟩⟩⟩⟩⟩⟩ <;> try exact sim_fail _
  unfold Srv.readStore Seg.Srv.readStore
  dsimp only
  simul

theorem sim_readDelete (m : Bool) (s : List Bytes) : Sim (Srv.readDelete m s) (Seg.Srv.readDelete m s) := by
  rcases s with _ | ⟨a, _ | ⟨b, _ | ⟨c, s⟩⟩⟩ <;> first | exact sim_fail _ | exact sim_pure _

theorem sim_readDelta (op : UInt8) (s : List Bytes) : Sim (Srv.readDelta op s) (Seg.Srv.readDelta op s) := by
  rcases s with _ | ⟨a, _ | ⟨b, _ | ⟨c, _ | ⟨d, s⟩⟩⟩⟩ <;> try exact sim_fail _
  unfold Srv.readDelta Seg.Srv.readDelta
  dsimp only
  simul

theorem sim_readMg (s : List Bytes) : Sim (Srv.readMg s) (Seg.Srv.readMg s) := by
  rcases s with _ | ⟨a, _ | ⟨b, _ | ⟨c, s⟩⟩⟩ <;> first | exact sim_fail _ | exact sim_pure _

theorem sim_readMs (s : List Bytes) : Sim (Srv.readMs s) (Seg.Srv.readMs s) := by
  rcases s with _ | ⟨a, _ | ⟨b, _ | ⟨c, s⟩⟩⟩ <;> try exact sim_fail _
  unfold Srv.readMs Seg.Srv.readMs
  dsimp only
  simul

theorem sim_asciiRequest (s : List Bytes) : Sim (Srv.asciiRequest s) (Seg.Srv.asciiRequest s) := by
  cases s with
  | nil => exact sim_fail _
  | cons cmd args =>
    unfold Srv.asciiRequest Seg.Srv.asciiRequest
    dsimp only
    refine sim_ite ?_ ?_
    · rcases args with _ | ⟨a, _ | ⟨b, s⟩⟩ <;> first | exact sim_fail _ | exact sim_pure _
    repeat' (first | apply sim_ite | exact sim_pure _ | exact sim_fail _ | exact sim_readStore _ _ | exact sim_readDelete _ _ | exact sim_readDelta _ _ | exact sim_readMg _ | exact sim_readMs _)

theorem sim_binaryRequest (h : Bytes) : Sim (Srv.binaryRequest h) (Seg.Srv.binaryRequest h) := by
  unfold Srv.binaryRequest Seg.Srv.binaryRequest
  simul

theorem sim_detect : Sim Srv.detect Seg.Srv.detect := by
  have : Srv.detect = (peek1 >>= fun b => pure (if b = 0x80 then .binary else .ascii)) := by
    funext i
    cases i <;> rfl
  rw [this]
  exact sim_peek1.bind fun _ => sim_pure _

theorem sim_readRequest (p : Option Srv.Protocol) : Sim (Srv.readRequest p) (Seg.Srv.readRequest p) := by
  unfold Srv.readRequest Seg.Srv.readRequest
  refine Sim.bind ?_ fun q => Sim.bind ?_ fun r => sim_pure _
  · cases p with
    | none => exact sim_detect
    | some q => exact sim_pure _
  · cases q with
    | ascii => exact sim_readBytes.bind fun _ => sim_asciiRequest _
    | binary => exact (sim_readFull 24).bind fun h => sim_ite (sim_fail _) (sim_binaryRequest h)

theorem serveLoop_eq {σ : Type} (h : Srv.Handler σ) (n : Nat) (p : Option Srv.Protocol) (s : σ) (c : Sock)
    (hc : c.buf.length ≤ bufSize) (hn : c.all.length < n) : Seg.serveLoop h n p s c = Srv.serve h p s c.all := by
  induction n generalizing p s c with
  | zero => omega
  | succ n ih =>
    obtain ⟨h1, h2⟩ := sim_readRequest p c hc
    unfold Seg.serveLoop Srv.serve
    cases hx : Seg.Srv.readRequest p c with
    | mk r c' =>
      rw [hx] at h1 h2
      dsimp only at h1 h2
      rw [h1]
      cases r with
      | err e => rfl
      | panic => rfl
      | ok q =>
        obtain ⟨q, req⟩ := q
        have hlt := Srv.readRequest_lt h1
        dsimp only
        cases hh : h s req with
        | mk y s' =>
          cases y with
          | err e => rfl
          | panic => rfl
          | ok res =>
            dsimp only
            cases hw : Srv.writeResponse q req res with
            | err e => rfl
            | panic => rfl
            | ok b =>
              dsimp only
              rw [ih (some q) s' c' h2 (by omega)]

end Verif
