import Verif.Props.ReverseMore
import Mathlib.Data.List.Perm.Subperm
/-! Property C212: how many upstream connections are kept for one client. -/
namespace Wm.Reverse
open Wm Wm.Config Wm.Helper

variable {W : Type}

/-- The upstream connections that can be kept for a client's connection, told apart as the code does (`Loc.key`): none at
    first; then whatever the requests leave, in any order, whatever the world is at each of them. -/
inductive Keeps (env : Env W) (servers : List Server) : List (Rule × Option Text × Option Text) → Prop
  | start : Keeps env servers []
  | request {cache} (w : W) (req : Req) (s' : St W) (o : Out) : Keeps env servers cache →
    operate env servers w cache req = some (s', o) → Keeps env servers s'.cache

/-- no connection twice, each for a location of a proxy -/
def Bounded (servers : List Server) (cache : List (Rule × Option Text × Option Text)) : Prop :=
  cache.Nodup ∧ ∀ k ∈ cache, ∃ srv ∈ servers, ∃ l ∈ srv.locs, l.kind = .proxy ∧ k = l.key

theorem Bounded.handle {env : Env W} {servers : List Server} {srv : Server} (hsrv : srv ∈ servers) {i : Nat} {l : Loc}
    (hl : l ∈ srv.locs) {req : Req} {s : St W} (h : Bounded servers s.cache) :
    Bounded servers (handle env i l req s).1.cache := by
  have hf : Bounded servers (s.cache.filter (· ≠ l.key)) :=
    ⟨h.1.filter _, fun k hk => h.2 k (List.mem_filter.1 hk).1⟩
  unfold Reverse.handle
  dsimp only
  by_cases hc : s.cache.contains l.key = true
  · rw [if_pos hc]
    cases (env.reuse s.world i req).1 with
    | closed => exact hf
    | failed => exact hf
    | gone => exact hf
    | answer a =>
      refine ⟨List.nodup_cons.2 ⟨by simp, hf.1⟩, fun k hk => ?_⟩
      rcases List.mem_cons.1 hk with rfl | hk
      · exact h.2 _ (by simpa using hc)
      · exact hf.2 k hk
  · rw [if_neg hc]
    by_cases hn : l.kind = .nothing
    · rw [if_pos hn]; exact h
    · rw [if_neg hn]
      cases (env.fresh s.world i req).1 with
      | none => exact h
      | some a =>
        by_cases hp : l.kind = .proxy
        · simp only [if_pos hp]
          refine ⟨List.nodup_cons.2 ⟨by simpa using hc, h.1⟩, fun k hk => ?_⟩
          rcases List.mem_cons.1 hk with rfl | hk
          · exact ⟨srv, hsrv, l, hl, hp, rfl⟩
          · exact h.2 k hk
        · simp only [if_neg hp]; exact h

theorem limitStep_cache (env : Env W) (i : Nat) (l : Loc) (req : Req) (s : St W) :
    (limitStep env i l req s).1.cache = s.cache := by
  unfold limitStep
  split
  · rfl
  · split <;> rfl

theorem selectServer_mem {host : Text} {servers : List Server} {srv : Server} (h : selectServer host servers = some srv) :
    srv ∈ servers := by
  induction servers with
  | nil => simp [selectServer] at h
  | cons s ss ih =>
    cases ss with
    | nil => simp [selectServer] at h; simp [h]
    | cons t ss =>
      simp only [selectServer] at h
      split at h
      · injection h with h; simp [h]
      · exact List.mem_cons_of_mem _ (ih h)

/-- **C212** At every moment, at most one upstream connection per location is kept for a client's connection, and only for
    locations with a proxy; so there are never more than the configuration has such locations, however many requests the client
    sends and whatever the upstream servers do. -/
theorem C212_kept (env : Env W) (servers : List Server) (cache : List (Rule × Option Text × Option Text))
    (h : Keeps env servers cache) :
    cache.Nodup ∧ (∀ k ∈ cache, ∃ srv ∈ servers, ∃ l ∈ srv.locs, l.kind = .proxy ∧ k = (l.rule, l.upName, l.method)) ∧
    cache.length ≤ ((servers.flatMap Server.locs).filter (fun l => decide (l.kind = .proxy))).length := by
  have hb : Bounded servers cache := by
    induction h with
    | start => exact ⟨List.nodup_nil, by simp⟩
    | request w req s' o _ hop ih =>
      unfold operate at hop
      cases hs : selectServer (req.host.getD []) servers with
      | none =>
        rw [hs] at hop
        simp only [Option.some.injEq, Prod.mk.injEq] at hop
        rw [← hop.1]; exact ih
      | some srv =>
        rw [hs] at hop
        refine dealMatch_inv (P := fun x => Bounded servers x.cache) ?_ ?_ ?_ ?_ _ _ _ _ _ rfl rfl ih hop
        · intro x d p hx; exact hx
        · intro x i l _ hx; rw [limitStep_cache]; exact hx
        · intro x i l _ hx _; exact hx
        · intro x i l hil hx _ _; exact hx.handle (selectServer_mem hs) (List.mem_of_getElem? hil)
  refine ⟨hb.1, hb.2, ?_⟩
  have hsub : cache ⊆ ((servers.flatMap Server.locs).filter (fun l => decide (l.kind = .proxy))).map Loc.key := by
    intro k hk
    obtain ⟨srv, h1, l, h2, h3, h4⟩ := hb.2 k hk
    exact List.mem_map.2 ⟨l, List.mem_filter.2 ⟨List.mem_flatMap.2 ⟨srv, h1, h2⟩, by simpa using h3⟩, h4.symm⟩
  have := (List.subperm_of_subset hb.1 hsub).length_le
  simpa using this

/-- two requests to two locations with a proxy: two connections are kept -/
example : ∃ cache, Keeps demoEnv [⟨[], [{ plainLoc ['/', 'a'] with kind := .proxy }, { plainLoc ['/', 'b'] with kind := .proxy }]⟩] cache ∧
    cache.length = 2 := by
  refine ⟨_, Keeps.request () (demoReq ['/', 'b'] none) _ _ (Keeps.request () (demoReq ['/', 'a'] none) _ _ Keeps.start rfl) rfl, ?_⟩
  decide +kernel

end Wm.Reverse
