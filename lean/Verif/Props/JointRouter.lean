import Verif.Props.JointOrder
/-!
C83: any number of clients, each shared by goroutines, connected to one router with its two rings of memcached servers.
-/

namespace Verif
namespace Joint
open Srv Srv.Accept Spec Props
open Pool (Hashes)
open Cluster (ReplicaPool)
open Proxy (Desk process)

variable {T : Type} [DecidableEq T] {S : Type} [DecidableEq S]

/-! ### The router is an atomic server -/

theorem sim_joint {H : Hashes} {r : ReplicaPool S} {p q : Bytes → S} (hp : ∀ k, r.primary.pick H k = .ok (p k))
    (hq : ∀ k, r.secondary.pick H k = .ok (q k)) (hpq : ∀ k k', p k ≠ q k') {N : Nat} {P : Nat → Sched.Params T}
    {q0 q1 : State T (Desk S)} (hl : Later P (process H r) q0 q1) (hn : NetOk q0)
    (hg : ∀ c req, Asked q1.server c req → GoodRequest req) (hN : q1.server.state.calls ≤ N) {a0 : Atomic Shelf}
    (h0 : Rel H r p q N q0.server.state a0 (busyReq q0.server)) :
    ∃ a1, Later P sharedShelf (swap q0 a0) (swap q1 a1) ∧ Rel H r p q N q1.server.state a1 (busyReq q1.server) ∧ NetOk q1 := by
  induction hl with
  | refl => exact ⟨a0, .refl, h0, hn⟩
  | @step v u hv hs ih =>
    cases hs with
    | user c s' h =>
      obtain ⟨a1, h1, h2, h3⟩ := ih hg hN
      refine ⟨a1, .step h1 (.user _ c s' h), h2, fun d k hk => ?_⟩
      obtain ⟨e1, e2⟩ := h3 d k hk
      show k.sent <+: (if d = c then s' else v.users d).sent ∧ (k.eof = true → (if d = c then s' else v.users d).isOpen = false)
      by_cases hd : d = c
      · subst hd
        rw [if_pos rfl]
        have hm := sched_mono h
        exact ⟨e1.trans hm.1, fun he => hm.2.1 (e2 he)⟩
      · rw [if_neg hd]; exact ⟨e1, e2⟩
    | server who w' h net =>
      have hg' : ∀ c req, Asked v.server c req → GoodRequest req := fun c req ha => hg c req (asked_step h ha)
      obtain ⟨a1, h1, h2, h3⟩ := ih hg' (Nat.le_trans (calls_step h) hN)
      have hsim : Sim H r p q N (lift v.server a1) [] v.server := ⟨a1, .start, h2⟩
      by_cases hw : who = .handler
      · subst hw
        obtain ⟨a2, ht, hr⟩ := sim_inside hp hq hpq hsim hg' h hN
        exact ⟨a2, h1.trans' (traced_later (users := v.users) ht h3 (by simp)).1, hr, net⟩
      · obtain ⟨a2, ht, hr⟩ := sim_event hp hq hsim hg' h hw
        refine ⟨a2, h1.trans' (traced_later (users := v.users) ht h3 fun e he => ?_).1, hr, net⟩
        rw [List.nil_append, List.mem_singleton] at he
        subst he
        exact net

end Joint
end Verif
