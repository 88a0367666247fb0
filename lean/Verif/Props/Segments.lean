import Verif.Spec.Segments
import Verif.Lemmas.Segmented
import Verif.Props.History
import Verif.Props.MetaHistory
/-! C31: what a client or the server does depends on the bytes of the stream, not on the pieces in
which they arrive. -/

namespace Verif
namespace Props
open Spec Kv Mc

theorem sim_arriving {α : Type} {m : Rd α} {x : Crd α} (h : Sim m x) (stream : Bytes) (cuts : Nat → Nat) :
    m stream = ((x (arriving stream cuts)).1, (x (arriving stream cuts)).2.all) :=
  (h (arriving stream cuts) (Nat.zero_le _)).1

theorem readEach_sim {α β : Type} (f : β → Rd α) (g : β → Crd α) (h : ∀ b, Sim (f b) (g b)) (ops : List β) (c : Sock)
    (hc : c.buf.length ≤ bufSize) :
    readEach (ops.map f) c.all = ((readEachIn (ops.map g) c).1, (readEachIn (ops.map g) c).2.all) := by
  induction ops generalizing c with
  | nil => rfl
  | cons b ops ih =>
    obtain ⟨h1, h2⟩ := h b c hc
    have := ih _ h2
    simp only [List.map_cons, readEach, readEachIn]
    rw [h1]
    dsimp only
    rw [this]

/-- C31, text connections: any operations in a row, on any stream, cut anywhere. -/
theorem C31_text (name : Bytes) (ops : List Op) (stream : Bytes) (cuts : Nat → Nat) :
    (readEachIn (ops.map (Seg.textRd name)) (arriving stream cuts)).1
        = (readEach (ops.map fun op => (textCall name op).rd) stream).1
      ∧ (readEachIn (ops.map (Seg.textRd name)) (arriving stream cuts)).2.all
        = (readEach (ops.map fun op => (textCall name op).rd) stream).2 := by
  have := readEach_sim (fun op => (textCall name op).rd) (Seg.textRd name) (sim_textCall name) ops
    (arriving stream cuts) (Nat.zero_le _)
  rw [show (arriving stream cuts).all = stream from rfl] at this
  rw [this]
  exact ⟨rfl, rfl⟩

/-- C31, meta connections. -/
theorem C31_meta (ops : List Op) (stream : Bytes) (cuts : Nat → Nat) :
    (readEachIn (ops.map Seg.metaRd) (arriving stream cuts)).1
        = (readEach (ops.map fun op => (metaCall op).rd) stream).1
      ∧ (readEachIn (ops.map Seg.metaRd) (arriving stream cuts)).2.all
        = (readEach (ops.map fun op => (metaCall op).rd) stream).2 := by
  have := readEach_sim (fun op => (metaCall op).rd) Seg.metaRd sim_metaCall ops
    (arriving stream cuts) (Nat.zero_le _)
  rw [show (arriving stream cuts).all = stream from rfl] at this
  rw [this]
  exact ⟨rfl, rfl⟩

/-- C31, binary connections, with the recycled headers each operation gets. -/
theorem C31_binary (ops : List (Bin.ReqHdr × Bin.ReqHdr × Op)) (stream : Bytes) (cuts : Nat → Nat) :
    (readEachIn (ops.map fun q => Seg.binRd q.1 q.2.1 q.2.2) (arriving stream cuts)).1
        = (readEach (ops.map fun q => (binCall q.1 q.2.1 q.2.2).rd) stream).1
      ∧ (readEachIn (ops.map fun q => Seg.binRd q.1 q.2.1 q.2.2) (arriving stream cuts)).2.all
        = (readEach (ops.map fun q => (binCall q.1 q.2.1 q.2.2).rd) stream).2 := by
  have := readEach_sim (fun q : Bin.ReqHdr × Bin.ReqHdr × Op => (binCall q.1 q.2.1 q.2.2).rd)
    (fun q => Seg.binRd q.1 q.2.1 q.2.2) (fun q => sim_binCall q.1 q.2.1 q.2.2) ops
    (arriving stream cuts) (Nat.zero_le _)
  rw [show (arriving stream cuts).all = stream from rfl] at this
  rw [this]
  exact ⟨rfl, rfl⟩

/-- C31, Version. -/
theorem C31_version (h : Bin.ReqHdr) (stream : Bytes) (cuts : Nat → Nat) :
    (Seg.Text.version (arriving stream cuts)).1 = (Text.version.rd stream).1
      ∧ (Seg.Meta.version (arriving stream cuts)).1 = (Meta.version.rd stream).1
      ∧ (Seg.Bin.version h (arriving stream cuts)).1 = ((Bin.version h).rd stream).1 := by
  rw [sim_arriving sim_text_version stream cuts, sim_arriving sim_meta_version stream cuts,
    sim_arriving (sim_bin_version h) stream cuts]
  exact ⟨rfl, rfl, rfl⟩

/-- C31, the same without the model of the whole stream: two ways of cutting a stream make no
difference, neither to the results nor to the bytes left for later operations. -/
theorem C31_any_two (name : Bytes) (ops : List Op) (bops : List (Bin.ReqHdr × Bin.ReqHdr × Op)) (stream : Bytes)
    (cuts cuts' : Nat → Nat) :
    (readEachIn (ops.map (Seg.textRd name)) (arriving stream cuts)).1
        = (readEachIn (ops.map (Seg.textRd name)) (arriving stream cuts')).1
      ∧ (readEachIn (ops.map Seg.metaRd) (arriving stream cuts)).1
        = (readEachIn (ops.map Seg.metaRd) (arriving stream cuts')).1
      ∧ (readEachIn (bops.map fun q => Seg.binRd q.1 q.2.1 q.2.2) (arriving stream cuts)).1
        = (readEachIn (bops.map fun q => Seg.binRd q.1 q.2.1 q.2.2) (arriving stream cuts')).1 :=
  ⟨(C31_text name ops stream cuts).1.trans (C31_text name ops stream cuts').1.symm,
    (C31_meta ops stream cuts).1.trans (C31_meta ops stream cuts').1.symm,
    (C31_binary bops stream cuts).1.trans (C31_binary bops stream cuts').1.symm⟩

/-- C31, the server: the requests passed to the handler, the bytes sent back, the handler's final state
and the way the connection ends are those of the whole stream, however it is cut. -/
theorem C31_serve {σ : Type} (h : Srv.Handler σ) (p : Option Srv.Protocol) (s : σ) (stream : Bytes) (cuts : Nat → Nat) :
    Seg.serve h p s (arriving stream cuts) = Srv.serve h p s stream :=
  serveLoop_eq h _ p s (arriving stream cuts) (Nat.zero_le _) (Nat.lt_succ_self _)

theorem session_seg (call : Op → Call Out) (rd : Op → Crd Out) (hsim : ∀ op, Sim (call op).rd (rd op))
    (events : List Event) (s : Store) (c : Sock) (hc : c.all = []) (hb : c.buf.length ≤ bufSize)
    (q : List (Res Out) × Store) (hs : session call s events = some q) :
    sessionIn (fun op => (call op).wire) rd s c events = some q := by
  induction events generalizing s c q with
  | nil => exact hs
  | cons ev rest ih =>
    obtain ⟨d, op⟩ := ev
    simp only [session] at hs
    cases hx : exchange (call op) (s.tick d) with
    | none => rw [hx] at hs; simp at hs
    | some y =>
      obtain ⟨res, s'⟩ := y
      rw [hx] at hs
      dsimp only at hs
      cases hr : session call s' rest with
      | none => rw [hr] at hs; simp at hs
      | some z =>
        rw [hr] at hs
        have hin : ∃ c', exchangeIn (call op).wire (rd op) (s.tick d) c = some (res, s', c') ∧ c'.all = []
            ∧ c'.buf.length ≤ bufSize := by
          unfold exchange at hx
          unfold exchangeIn
          cases hw : (call op).wire with
          | err e => rw [hw] at hx; simp at hx
          | panic => rw [hw] at hx; simp at hx
          | ok w =>
            rw [hw] at hx
            dsimp only at hx ⊢
            cases ha : answer (s.tick d) w with
            | none => rw [ha] at hx; simp at hx
            | some p =>
              obtain ⟨reply, s1⟩ := p
              rw [ha] at hx
              dsimp only at hx ⊢
              have hc' : c.buf = [] ∧ c.net = [] := by
                simpa [Sock.all] using hc
              have hall : ({ c with net := c.net ++ reply } : Sock).all = reply := by
                simp [Sock.all, hc'.1, hc'.2]
              obtain ⟨h1, h2⟩ := hsim op { c with net := c.net ++ reply } hb
              rw [hall] at h1
              rw [h1] at hx
              cases hrest : (rd op { c with net := c.net ++ reply }).2.all with
              | cons a l => rw [hrest] at hx; simp at hx
              | nil =>
                rw [hrest] at hx
                dsimp only at hx
                split at hx
                · simp at hx
                · simp only [Option.some.injEq, Prod.mk.injEq] at hx
                  obtain ⟨rfl, rfl⟩ := hx
                  exact ⟨_, rfl, hrest, h2⟩
        obtain ⟨c', h1, h2, h3⟩ := hin
        simp only [sessionIn, h1, ih s' c' h2 h3 z hr]
        exact hs

/-- C31, a whole history: the clients of C52 get the same results from a memcached server whose replies
arrive in arbitrary pieces. -/
theorem C31_text_history (name : Bytes) (events : List Event) (s : Store) (cuts : Nat → Nat)
    (ho : ∀ ev ∈ events, GoodOp ev.2) (hs : GoodStore s) (hc : s.nextCas + events.length < 2 ^ 63) :
    sessionIn (fun op => (textCall name op).wire) (Seg.textRd name) s (arriving [] cuts) events
      = some (runApi (textApi name) s events) :=
  session_seg _ _ (sim_textCall name) events s _ rfl (Nat.zero_le _) _ (C52_text_history name events s ho hs hc)

theorem C31_meta_history (events : List Event) (s : Store) (cuts : Nat → Nat) (hs : GoodMetaStore s)
    (ho : Along metaApi GoodMetaOp s events) (hc : s.nextCas + events.length < 2 ^ 63) :
    sessionIn (fun op => (metaCall op).wire) Seg.metaRd s (arriving [] cuts) events
      = some (runApi metaApi s events) :=
  session_seg _ _ sim_metaCall events s _ rfl (Nat.zero_le _) _ (C52_meta_history events s hs ho hc)

/-- A reply that comes one byte at a time. -/
example : (Seg.Text.get b!"s" b!"k" (arriving b!"VALUE k 0 3 7\r\na\r\n\r\nEND\r\nmore" (fun _ => 1))).1
    = .ok { key := b!"k", value := b!"a\r\n", flags := some [0, 0, 0, 0], cas := 7, server := b!"s" } := by
  have := sim_arriving (sim_text_get b!"s" b!"k") b!"VALUE k 0 3 7\r\na\r\n\r\nEND\r\nmore" (fun _ => 1)
  exact (congrArg Prod.fst this).symm.trans (by decide +kernel)

/-- The pieces do matter to the connection: after one read of five bytes the buffer holds the rest of
the piece, after one-byte reads it holds nothing. -/
example : (Bufio.readSlice (arriving b!"OK\r\nEN\r\n" (fun _ => 5))).2.buf = b!"E"
    ∧ (Bufio.readSlice (arriving b!"OK\r\nEN\r\n" (fun _ => 1))).2.buf = [] := by decide +kernel

end Props
end Verif
