import Verif.Model.Ids
import Verif.Props.Codec
/-! Properties C05 and C06: stream ids. -/
namespace Wm.Tunnel
open Wm Wm.Prot

theorem nth_eq (n : Nat) : ∀ g : IdGen, g.nextId < 2 ^ 32 →
    g.nth n = g.serverId * 2 ^ 32 + (g.nextId + 2 * n) % 2 ^ 32 := by
  induction n with
  | zero => intro g h; simp [IdGen.nth, IdGen.calcNextId, calcSockMap]; omega
  | succ n ih =>
    intro g h
    rw [IdGen.nth, ih _ (by simp only [IdGen.calcNextId]; omega)]
    simp only [IdGen.calcNextId]
    omega

/-- **C05** The first 2^31 ids allocated by an endpoint are pairwise different. -/
theorem C05_distinct (serverId n m : Nat) (hn : n < 2 ^ 31) (hm : m < 2 ^ 31) (h : n ≠ m) :
    (serverIds serverId).nth n ≠ (serverIds serverId).nth m ∧
    (clientIds serverId).nth n ≠ (clientIds serverId).nth m := by
  rw [nth_eq _ _ (by simp [serverIds]), nth_eq _ _ (by simp [serverIds]), nth_eq _ _ (by simp [clientIds]),
    nth_eq _ _ (by simp [clientIds])]
  simp only [serverIds, clientIds]
  omega

/-- **C05** Ids allocated by a server are even, by a client odd, at any time: no id is ever allocated by both, and no
    client id is the reserved 0. -/
theorem C05_disjoint (s c n m : Nat) :
    (serverIds s).nth n % 2 = 0 ∧ (clientIds c).nth m % 2 = 1 ∧ (serverIds s).nth n ≠ (clientIds c).nth m ∧
    (clientIds c).nth m ≠ 0 := by
  rw [nth_eq _ _ (by simp [serverIds]), nth_eq _ _ (by simp [clientIds])]
  simp only [serverIds, clientIds]
  omega

/-- The bound 2^31 is the best possible: the ids repeat after 2^31 allocations. -/
theorem C05_bound_sharp (s n : Nat) : (serverIds s).nth (n + 2 ^ 31) = (serverIds s).nth n ∧
    (clientIds s).nth (n + 2 ^ 31) = (clientIds s).nth n := by
  rw [nth_eq _ _ (by simp [serverIds]), nth_eq n _ (by simp [serverIds]), nth_eq _ _ (by simp [clientIds]),
    nth_eq n _ (by simp [clientIds])]
  simp only [serverIds, clientIds]; omega

example : (serverIds 7).nth 3 = 7 * 2 ^ 32 + 8 ∧ (clientIds 0).nth 3 = 7 := by decide

/-- **C06**, partial: the first 2^23 - 1 ids of an endpoint stay different on the wire: the peer decodes data messages
    carrying them as different messages. Missing: later ids, see `C06_distinct_on_wire_fails`. -/
theorem C06_distinct_on_wire_partial (serverId n m : Nat) (hs : serverId < 2 ^ 32) (hn : n < 2 ^ 23 - 1)
    (hm : m < 2 ^ 23 - 1) (h : n ≠ m) (d : Bytes) (hd : d.length < 2 ^ 24) :
    decodeFrame (wire (.data ((serverIds serverId).nth n) d)) ≠
      decodeFrame (wire (.data ((serverIds serverId).nth m) d)) ∧
    decodeFrame (wire (.data ((clientIds serverId).nth n) d)) ≠
      decodeFrame (wire (.data ((clientIds serverId).nth m) d)) := by
  have e1 := nth_eq n (serverIds serverId) (by simp [serverIds])
  have e2 := nth_eq m (serverIds serverId) (by simp [serverIds])
  have e3 := nth_eq n (clientIds serverId) (by simp [clientIds])
  have e4 := nth_eq m (clientIds serverId) (by simp [clientIds])
  simp only [serverIds, clientIds] at e1 e2 e3 e4
  constructor
  · intro he
    have := (C04_ids_confused_iff _ _ (by unfold serverIds; omega) (by unfold serverIds; omega) d hd).1 he
    unfold serverIds at this
    omega
  · intro he
    have := (C04_ids_confused_iff _ _ (by unfold clientIds; omega) (by unfold clientIds; omega) d hd).1 he
    unfold clientIds at this
    omega

example : (5 : Nat) < 2 ^ 32 ∧ (8388606 : Nat) < 2 ^ 23 - 1 := by decide

/-- **C06** fails: the id allocated after 2^23 others is a different id, but the peer cannot tell it from the first
    one: a message for one stream reaches the other. -/
theorem C06_distinct_on_wire_fails (serverId n : Nat) (hs : serverId < 2 ^ 32) (d : Bytes) (hd : d.length < 2 ^ 24) :
    (n < 2 ^ 31 - 2 ^ 23 → (serverIds serverId).nth (n + 2 ^ 23) ≠ (serverIds serverId).nth n ∧
      (clientIds serverId).nth (n + 2 ^ 23) ≠ (clientIds serverId).nth n) ∧
    decodeFrame (wire (.data ((serverIds serverId).nth (n + 2 ^ 23)) d)) =
      decodeFrame (wire (.data ((serverIds serverId).nth n) d)) ∧
    decodeFrame (wire (.data ((clientIds serverId).nth (n + 2 ^ 23)) d)) =
      decodeFrame (wire (.data ((clientIds serverId).nth n) d)) := by
  refine ⟨fun h => C05_distinct serverId _ _ (by omega) (by omega) (by omega), ?_, ?_⟩
  all_goals
    refine (C04_ids_confused_iff _ _ ?_ ?_ d hd).2 ?_
    all_goals (try rw [nth_eq _ _ (by simp [serverIds, clientIds])])
    all_goals (try rw [nth_eq n _ (by simp [serverIds, clientIds])])
    all_goals simp only [serverIds, clientIds]; omega

/-- **C06** fails also with the reserved id: after 2^23 - 1 allocations a server hands out an id which the peer reads
    as 0 (for server id 0), the id of messages for the connection itself. -/
theorem C06_reserved_id_fails (d : Bytes) (hd : d.length < 2 ^ 24) :
    decodeFrame (wire (.data ((serverIds 0).nth (2 ^ 23 - 1)) d)) = decodeFrame (wire (.data 0 d)) := by
  have key : ∀ n, n = 2 ^ 23 - 1 →
      decodeFrame (wire (.data ((serverIds 0).nth n) d)) = decodeFrame (wire (.data 0 d)) := by
    intro n hn
    have e : (serverIds 0).nth n = 2 ^ 24 := by
      rw [nth_eq n _ (by simp [serverIds])]; simp only [serverIds]; omega
    rw [e]
    exact (C04_ids_confused_iff _ _ (by decide) (by decide) d hd).2 (by decide)
  exact key _ rfl

end Wm.Tunnel
