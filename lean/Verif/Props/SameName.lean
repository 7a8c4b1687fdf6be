import Verif.Props.TryBody
import Verif.Props.Inherit
/-! Property C69 for server blocks that cannot be told apart by their names. -/
namespace Wm.Reverse
open Wm Wm.Config Wm.Helper

variable {W : Type}

/-- **C69** fails for server blocks of the same name (the default is the empty name) with proxied locations of the same rule, whatever
    else their settings are: after a request to the first (answered by its upstream server) a request of the same connection to the
    second does not open a connection to the second's upstream server. It is sent over the connection kept for the first, and what
    that gives is the answer. -/
theorem C69_same_name_fails (env : Env W) (servers : List Server) (w w1 : W)
    (cache : List (Rule × Option Text × Option Text)) (req1 req2 : Req) (srv1 srv2 : Server) (i j : Nat) (l1 l2 : Loc) (a : Response)
    (hs1 : selectServer (req1.host.getD []) servers = some srv1) (hs2 : selectServer (req2.host.getD []) servers = some srv2)
    (h1 : Takes env srv1.locs req1 i l1) (h2 : Takes env srv2.locs req2 j l2) (hk : l1.kind = .proxy) (hc : l1.key ∉ cache)
    (hup1 : l1.upName = some srv1.name) (hup2 : l2.upName = some srv2.name) (hname : srv1.name = srv2.name)
    (hrule : l1.rule = l2.rule) (hmethod : l1.method = l2.method) (ha : env.fresh w i req1 = (some a, w1)) :
    ∃ s1 o1 s2 o2, operate env servers w cache req1 = some (s1, o1) ∧ operate env servers s1.world s1.cache req2 = some (s2, o2) ∧
      s1.world = w1 ∧ s2.world = (env.reuse w1 j req2).2 ∧
      (∀ b, (env.reuse w1 j req2).1 = .answer b → o2 = .resp b) ∧ ∀ r, .handled j r false ∉ s2.trace := by
  have hkey : l2.key = l1.key := by unfold Loc.key; rw [hrule, hmethod, hup1, hup2, hname]
  have op : ∀ (w : W) (cache : List (Rule × Option Text × Option Text)) (req : Req) (srv : Server) (i : Nat) (l : Loc),
      selectServer (req.host.getD []) servers = some srv → Takes env srv.locs req i l →
      operate env servers w cache req = some (handle env i l req ⟨w, cache, [], [], [], req⟩) := by
    intro w cache req srv i l hs ht
    unfold operate
    rw [hs]
    exact ht.deal _ _ rfl
  have hcc : cache.contains l1.key = false := by simpa using hc
  have hh1 : (handle env i l1 req1 (⟨w, cache, [], [], [], req1⟩ : St W)).1.world = w1 ∧
      (handle env i l1 req1 (⟨w, cache, [], [], [], req1⟩ : St W)).1.cache = l1.key :: cache := by
    constructor <;> simp [handle, hcc, hc, hk, ha]
  have hmem : (l1.key :: cache).contains l2.key = true := by rw [hkey]; simp
  have hh2 : ∃ s2 o2, handle env j l2 req2 (⟨w1, l1.key :: cache, [], [], [], req2⟩ : St W) = (s2, o2) ∧
      s2.world = (env.reuse w1 j req2).2 ∧ (∀ b, (env.reuse w1 j req2).1 = .answer b → o2 = .resp b) ∧
      ∀ r, .handled j r false ∉ s2.trace := by
    unfold handle
    dsimp only
    rw [if_pos hmem]
    cases hr : (env.reuse w1 j req2).1 with
    | closed => exact ⟨_, _, rfl, rfl, (by intro b hb; cases hb), (by intro r hm; cases hm)⟩
    | answer b => exact ⟨_, _, rfl, rfl, (by intro b' hb; cases hb; rfl), (by intro r hm; simp at hm)⟩
    | failed => exact ⟨_, _, rfl, rfl, (by intro b hb; cases hb), (by intro r hm; simp at hm)⟩
    | gone => exact ⟨_, _, rfl, rfl, (by intro b hb; cases hb), (by intro r hm; simp at hm)⟩
  obtain ⟨s2, o2, e2, g1, g2, g3⟩ := hh2
  refine ⟨(handle env i l1 req1 ⟨w, cache, [], [], [], req1⟩).1, (handle env i l1 req1 ⟨w, cache, [], [], [], req1⟩).2, s2, o2,
    op w cache req1 srv1 i l1 hs1 h1, ?_, hh1.1, g1, g2, g3⟩
  rw [hh1.1, hh1.2, op _ _ req2 srv2 j l2 hs2 h2, e2]

/-- an upstream that answers with the number of requests it got in its headers; two upstreams with status 200 and 201 -/
def twoEnv (servers : List Server) : Env (Option Nat) where
  parseIp _ := none
  regex _ := none
  format _ v := v
  hdr := exactHeaders
  limit w _ _ _ := (.ok, w)
  fresh _ _ req := (some ⟨200 + servers.findIdx (fun s => selectServer (req.host.getD []) servers = some s), []⟩,
    some (200 + servers.findIdx (fun s => selectServer (req.host.getD []) servers = some s)))
  left _ _ r := (r.host, false)
  reuse w _ _ := (.answer ⟨w.getD 0, []⟩, w)

/-- a request to the second server is answered by the upstream server of the first: 200 instead of 201 -/
example :
    let l (k : Option Nat) : Loc := { plainLoc ['/'] with kind := .proxy, upName := some [], limit := k.map fun n => (['z'], n) }
    let servers : List Server := [⟨[], [l none]⟩, ⟨[], [l (some 1)]⟩]
    let req1 := demoReq ['/'] none
    let req2 := { demoReq ['/'] none with host := some ['h'] }
    let r1 := operate (twoEnv servers) servers none [] req1
    (operate (twoEnv servers) servers none [] req2).map (·.2) = some (.resp ⟨201, []⟩) ∧
    r1.map (·.2) = some (.resp ⟨200, []⟩) ∧
    (operate (twoEnv servers) servers (r1.elim none (·.1.world)) (r1.elim [] (·.1.cache)) req2).map (·.2)
      = some (.resp ⟨200, []⟩) := by
  decide +kernel

end Wm.Reverse
