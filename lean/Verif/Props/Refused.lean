import Verif.Props.ReverseMore
import Verif.Model.Limit
/-! Property C211: clients that a location does not let in, and its request limit. -/
namespace Wm.Reverse
open Wm Wm.Config Wm.Helper

variable {W : Type}

/-- requests one after the other, each on a connection of its own: what they leave of the world -/
def visits (env : Env W) (servers : List Server) (w : W) : List Req → Option W
  | [] => some w
  | r :: rs => (operate env servers w [] r).bind fun x => visits env servers x.1.world rs

/-- **C211** fails, always: a request of a client that the location does not let in is counted by the location's limit as
    any other. -/
theorem C211_counted_fails (env : Env W) (servers : List Server) (w : W) (cache : List (Rule × Option Text × Option Text))
    (req : Req) (srv : Server) (hsrv : selectServer (req.host.getD []) servers = some srv) (i : Nat) (l : Loc)
    (hfirst : IsFirst env srv.locs req i l) (t : Text) (ht : req.clientIp = some t) (ip : Ip)
    (hip : env.parseIp t = some ip) (hrefuse : TurnsAway l ip) (zone : Text) (burst : Nat) (hl : l.limit = some (zone, burst)) :
    ∃ s' o, operate env servers w cache req = some (s', o) ∧ s'.world = (env.limit w zone t burst).2 := by
  have hacc : access env l req = .refuse := access_refuse ht hip hrefuse
  unfold operate
  rw [hsrv]
  by_cases hd : (env.limit w zone t burst).1 = .refuse
  · simp only [dealMatch, findLoc_of_first hfirst, limitStep, hl, ht, hd, if_true]
    exact ⟨_, _, rfl, rfl⟩
  · simp only [dealMatch, findLoc_of_first hfirst, limitStep, hl, ht, hd, if_false, hacc]
    exact ⟨_, _, rfl, rfl⟩

/-- **C211**, partial: at a location without a limit of its own (or of an outer block) a request of a client that is not let
    in changes nothing at all. Missing: locations with a limit (`C211_counted_fails`, `C211_shut_out_fails`). -/
theorem C211_unlimited_partial (env : Env W) (servers : List Server) (w : W) (cache : List (Rule × Option Text × Option Text))
    (req : Req) (srv : Server) (hsrv : selectServer (req.host.getD []) servers = some srv) (i : Nat) (l : Loc)
    (hfirst : IsFirst env srv.locs req i l) (t : Text) (ht : req.clientIp = some t) (ip : Ip)
    (hip : env.parseIp t = some ip) (hrefuse : TurnsAway l ip) (hl : l.limit = none) :
    ∃ s', operate env servers w cache req = some (s', .resp ⟨503, []⟩) ∧ s'.world = w ∧ s'.cache = cache ∧ s'.trace = [] := by
  have hacc : access env l req = .refuse := access_refuse ht hip hrefuse
  unfold operate
  rw [hsrv]
  simp only [dealMatch, findLoc_of_first hfirst, limitStep, hl, hacc]
  exact ⟨_, rfl, rfl, rfl, rfl⟩

/-! ### The table of a limit, filled by clients that are not let in -/

/-- a table of entries of one moment -/
def Crowd (now : Nat) (z : Limit.Zone) (limit : Nat) (ips : List Text) : Prop :=
  z.limit = limit ∧ z.ips.map Prod.fst = ips ∧ ∀ e ∈ z.ips, e.2.last = now

theorem Crowd.cleanup {now z limit ips} (h : Crowd now z limit ips) : Crowd now (z.cleanup now) limit ips := by
  unfold Limit.Zone.cleanup
  split
  · exact h
  · split
    · exact h
    · have : z.ips.filter (fun e => !(decide (now - e.2.last > 50 * z.per))) = z.ips := by
        rw [List.filter_eq_self]
        intro e he
        rw [h.2.2 e he]
        simp
      refine ⟨h.1, ?_, ?_⟩
      · show List.map _ (z.ips.filter _) = _
        rw [this]; exact h.2.1
      · show ∀ e ∈ z.ips.filter _, _
        rw [this]; exact h.2.2

theorem Crowd.enter {now z limit ips} (h : Crowd now z limit ips) (hl : ips.length < limit) {ip : Text} (hn : ip ∉ ips)
    (burst : Nat) : Crowd now (z.recv ⟨ip, now, burst⟩).1 limit (ips ++ [ip]) := by
  have hc := h.cleanup
  unfold Limit.Zone.recv
  dsimp only
  have hlen : (z.cleanup now).ips.length = ips.length := by rw [← hc.2.1, List.length_map]
  rw [if_neg (by rw [hlen, hc.1]; omega)]
  have hg : Limit.get (z.cleanup now).ips ip = none := by
    unfold Limit.get
    rw [Option.map_eq_none_iff, List.find?_eq_none]
    intro e he heq
    apply hn
    rw [← hc.2.1]
    exact List.mem_map.2 ⟨e, he, by simpa using heq⟩
  rw [hg]
  refine ⟨hc.1, ?_, ?_⟩
  · simp [hc.2.1]
  · intro e he
    rcases List.mem_append.1 he with he | he
    · exact hc.2.2 e he
    · rw [List.mem_singleton.1 he]

theorem Crowd.full {now z limit ips} (h : Crowd now z limit ips) (hl : ips.length = limit) (ip : Text) (burst : Nat) :
    (z.recv ⟨ip, now, burst⟩).2 = .refuse := by
  have hc := h.cleanup
  unfold Limit.Zone.recv
  dsimp only
  have hlen : (z.cleanup now).ips.length = ips.length := by rw [← hc.2.1, List.length_map]
  rw [if_pos (by rw [hlen, hc.1]; omega)]

theorem zones_recv {zs : Limit.Zones} {key : Text} {z : Limit.Zone}
    (h : zs.find? (fun e => e.1 == key) = some (key, z)) (r : Limit.Req) :
    (zs.recv key r).2 = (z.recv r).2 ∧ (zs.recv key r).1.find? (fun e => e.1 == key) = some (key, (z.recv r).1) := by
  unfold Limit.Zones.recv
  rw [h]
  refine ⟨rfl, ?_⟩
  dsimp only
  induction zs with
  | nil => simp at h
  | cons x zs ih =>
    by_cases hx : x.1 = key
    · simp [List.map_cons, hx]
    · rw [List.find?_cons_of_neg (by simpa using hx)] at h
      rw [List.map_cons, if_neg hx, List.find?_cons_of_neg (by simpa using hx)]
      exact ih h

/-- **C211** fails: clients that a location never lets in shut out those it lets in. As many of them as the zone of the
    location's limit has places ask once; from then on a client that the location lets in, and that never asked before, is
    refused by the limit, and no handler gets its request. (All of this within one moment; the places become free again only
    after 50 periods of the limit at the earliest.) -/
theorem C211_shut_out_fails (env : Env Limit.Zones) (now : Nat)
    (hclock : ∀ zs zone ip burst, env.limit zs zone ip burst = ((zs.recv zone ⟨ip, now, burst⟩).2, (zs.recv zone ⟨ip, now, burst⟩).1))
    (servers : List Server) (l : Loc) (zone : Text) (burst : Nat) (hl : l.limit = some (zone, burst))
    -- all the requests are for this location
    (here : Req → Prop)
    (hhere : ∀ r, here r → ∃ srv i, selectServer (r.host.getD []) servers = some srv ∧ IsFirst env srv.locs r i l)
    (w : Limit.Zones) (limit nums per : Nat)
    (hw : w.find? (fun e => e.1 == zone) = some (zone, .new limit nums per now))
    -- the clients that are not let in
    (bad : List Req) (hbad : ∀ r ∈ bad, here r ∧ ∃ t ip, r.clientIp = some t ∧ env.parseIp t = some ip ∧ TurnsAway l ip)
    (hdist : (bad.map Req.clientIp).Nodup) (hlen : bad.length = limit)
    -- the client that is let in
    (good : Req) (hgood : here good) (g : Text) (hg : good.clientIp = some g) :
    ∃ w', visits env servers w bad = some w' ∧
      ∀ cache, ∃ s', operate env servers w' cache good = some (s', .resp ⟨404, []⟩) ∧ ∀ j r k, .handled j r k ∉ s'.trace := by
  have main : ∀ (bad : List Req) (w : Limit.Zones) (z : Limit.Zone) (ips : List Text),
      w.find? (fun e => e.1 == zone) = some (zone, z) → Crowd now z limit ips →
      (∀ r ∈ bad, here r ∧ ∃ t ip, r.clientIp = some t ∧ env.parseIp t = some ip ∧ TurnsAway l ip) →
      (ips.map some ++ bad.map Req.clientIp).Nodup → ips.length + bad.length = limit →
      ∃ w' z' ips', visits env servers w bad = some w' ∧ w'.find? (fun e => e.1 == zone) = some (zone, z') ∧
        Crowd now z' limit ips' ∧ ips'.length = limit := by
    intro bad
    induction bad with
    | nil => intro w z ips h1 h2 _ _ h5; exact ⟨w, z, ips, rfl, h1, h2, by simpa using h5⟩
    | cons r bad ih =>
      intro w z ips h1 h2 h3 h4 h5
      obtain ⟨hr, t, ip, ht, hip, hta⟩ := h3 r (by simp)
      obtain ⟨srv, i, hs, hf⟩ := hhere r hr
      obtain ⟨s', o, e1, e2⟩ := C211_counted_fails env servers w [] r srv hs i l hf t ht ip hip hta zone burst hl
      rw [hclock] at e2
      have hz := (zones_recv h1 ⟨t, now, burst⟩).2
      rw [← show s'.world = (w.recv zone ⟨t, now, burst⟩).1 from e2] at hz
      have hn : t ∉ ips := by
        intro hm
        rw [List.map_cons, ht] at h4
        have := (List.nodup_append.1 h4).2.2 (some t) (List.mem_map.2 ⟨t, hm, rfl⟩) (some t) (by simp)
        exact this rfl
      have hc := h2.enter (by simp at h5; omega) hn burst
      obtain ⟨w', z', ips', k1, k2⟩ := ih s'.world _ (ips ++ [t]) hz hc (fun r hr => h3 r (by simp [hr]))
        (by simpa [List.map_cons, ht] using h4) (by simp at h5 ⊢; omega)
      exact ⟨w', z', ips', by simp only [visits, e1, Option.bind_some]; exact k1, k2⟩
  obtain ⟨w', z', ips', k1, k2, k3, k4⟩ := main bad w _ [] hw ⟨rfl, rfl, by simp [Limit.Zone.new]⟩ hbad (by simpa using hdist)
    (by simpa using hlen)
  refine ⟨w', k1, fun cache => ?_⟩
  obtain ⟨srv, i, hs, hf⟩ := hhere good hgood
  have hd : (env.limit w' zone g burst).1 = .refuse := by
    rw [hclock]
    exact (zones_recv k2 _).1.trans (k3.full k4 g burst)
  unfold operate
  rw [hs]
  simp only [dealMatch, findLoc_of_first hf, limitStep, hl, hg, hd, if_true]
  exact ⟨_, rfl, by simp⟩

/-- a location that lets in one address, with a limit of two clients: two others ask, then the one is refused -/
def crowdEnv : Env Limit.Zones where
  parseIp t := if t = ['x'] then some (.v4 0x0A000001#32) else some (.v4 0x0B000001#32)
  regex _ := none
  format _ v := v
  hdr := exactHeaders
  limit zs zone ip burst := ((zs.recv zone ⟨ip, 5, burst⟩).2, (zs.recv zone ⟨ip, 5, burst⟩).1)
  fresh w _ _ := (some ⟨200, []⟩, w)
  left _ _ r := (r.host, false)
  reuse w _ _ := (.closed, w)

example : let l : Loc := { plainLoc ['/'] with limit := some (['z'], 0), allow := some [⟨.v4 0x0A000000#32, 8⟩] }
    let w : Limit.Zones := [(['z'], .new 2 10 100 5)]
    let ask (w : Limit.Zones) (ip : Text) := operate crowdEnv [⟨[], [l]⟩] w [] (demoReq ['/'] (some ip))
    (ask w ['x']).map (·.2) = some (.resp ⟨200, []⟩) ∧
    (((visits crowdEnv [⟨[], [l]⟩] w [demoReq ['/'] (some ['a']), demoReq ['/'] (some ['b'])]).bind
      fun w' => ask w' ['x']).map (·.2)) = some (.resp ⟨404, []⟩) := by decide +kernel

end Wm.Reverse
