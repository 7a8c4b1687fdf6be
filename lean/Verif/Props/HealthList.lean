import Verif.Model.HealthList
/-!
C59: each upstream address is health-checked once.
-/
namespace Wm.HealthList
open Wm

/-! ### Specification -/

/-- The groups of a server, with those of its locations. -/
def Server.groups (s : Server) : List Group := s.upstream ++ s.location.flatMap (·.upstream)

/-- All upstream groups of a configuration. -/
def Config.groups (c : Config) : List Group :=
  (match c.http with | none => [] | some h => h.upstream ++ h.server.flatMap Server.groups) ++
  (match c.stream with | none => [] | some h => h.upstream ++ h.server.flatMap Server.groups)

/-- The groups outside locations. -/
def Config.outer (c : Config) : List Group :=
  (match c.http with | none => [] | some h => h.upstream ++ h.server.flatMap (·.upstream)) ++
  (match c.stream with | none => [] | some h => h.upstream ++ h.server.flatMap (·.upstream))

/-- `a` is an address of one of the groups, which is not a UDP group. -/
def Wanted (gs : List Group) (a : SockAddr) : Prop := ∃ g ∈ gs, g.bind ≠ "udp".toList ∧ a ∈ g.server

/-! ### Proof -/

/-- the result lists exactly the addresses already seen, each once -/
def Good (st : List OneHealth × List SockAddr) (gs : List Group) : Prop :=
  (∀ a, a ∈ st.2 ↔ Wanted gs a) ∧ (∀ a, a ∈ st.1.map (·.addr) ↔ a ∈ st.2) ∧ (st.1.map (·.addr)).Nodup

theorem addServers_good (st : List OneHealth × List SockAddr) (l : List SockAddr)
    (h2 : ∀ a, a ∈ st.1.map (·.addr) ↔ a ∈ st.2) (h3 : (st.1.map (·.addr)).Nodup) :
    (∀ a, a ∈ (addServers st l).2 ↔ a ∈ st.2 ∨ a ∈ l) ∧
      (∀ a, a ∈ (addServers st l).1.map (·.addr) ↔ a ∈ (addServers st l).2) ∧ ((addServers st l).1.map (·.addr)).Nodup := by
  induction l generalizing st with
  | nil => exact ⟨by simp [addServers], h2, h3⟩
  | cons x r ih =>
    simp only [addServers]
    split
    · rename_i hx
      obtain ⟨e1, e2, e3⟩ := ih st h2 h3
      refine ⟨fun a => ?_, e2, e3⟩
      rw [e1 a, List.mem_cons]
      constructor
      · rintro (h | h) <;> simp [h]
      · rintro (h | rfl | h)
        · exact .inl h
        · exact .inl hx
        · exact .inr h
    · rename_i hx
      obtain ⟨e1, e2, e3⟩ := ih (st.1 ++ [⟨x, "http".toList, 1⟩], x :: st.2)
        (by intro a; simp only [List.map_append, List.mem_append, h2 a, List.mem_cons]; simp [or_comm])
        (by
          rw [List.map_append, List.nodup_append]
          refine ⟨h3, by simp, ?_⟩
          intro a ha b hb
          simp only [List.map_cons, List.map_nil, List.mem_singleton] at hb
          subst hb
          intro hab
          subst hab
          exact hx ((h2 a).mp ha))
      refine ⟨fun a => ?_, e2, e3⟩
      rw [e1 a]
      simp only [List.mem_cons]
      constructor
      · rintro ((h | h) | h) <;> simp [h]
      · rintro (h | h | h) <;> simp [h]

theorem tryAdd_good (st : List OneHealth × List SockAddr) (gs l : List Group) (h : Good st gs) :
    Good (tryAdd st l) (gs ++ l) := by
  induction l generalizing st gs with
  | nil => simpa [tryAdd] using h
  | cons g r ih =>
    have happ : gs ++ g :: r = (gs ++ [g]) ++ r := by simp
    rw [happ]
    simp only [tryAdd]
    split
    · rename_i hu
      refine ih st (gs ++ [g]) ⟨fun a => ?_, h.2.1, h.2.2⟩
      rw [h.1 a]
      constructor
      · rintro ⟨g', h1, h2⟩; exact ⟨g', by simp [h1], h2⟩
      · rintro ⟨g', h1, h2, h3⟩
        rcases List.mem_append.mp h1 with h1 | h1
        · exact ⟨g', h1, h2, h3⟩
        · rw [List.mem_singleton] at h1; subst h1; exact absurd hu h2
    · rename_i hu
      obtain ⟨e1, e2, e3⟩ := addServers_good st g.server h.2.1 h.2.2
      refine ih _ (gs ++ [g]) ⟨fun a => ?_, e2, e3⟩
      rw [e1 a, h.1 a]
      constructor
      · rintro (⟨g', h1, h2⟩ | h1)
        · exact ⟨g', by simp [h1], h2⟩
        · exact ⟨g, by simp, hu, h1⟩
      · rintro ⟨g', h1, h2, h3⟩
        rcases List.mem_append.mp h1 with h1 | h1
        · exact .inl ⟨g', h1, h2, h3⟩
        · rw [List.mem_singleton] at h1; subst h1; exact .inr h3

theorem addAll_good (st : List OneHealth × List SockAddr) (gs : List Group) (l : List Server) (h : Good st gs) :
    Good (addAll st l) (gs ++ l.flatMap (·.upstream)) := by
  induction l generalizing st gs with
  | nil => simpa [addAll] using h
  | cons s r ih =>
    have := ih _ _ (tryAdd_good st gs s.upstream h)
    simpa [addAll] using this

theorem getHealthCheck_good (c : Config) : Good (addStream (addHttp ([], []) c.http) c.stream) c.outer := by
  have h0 : Good ([], []) [] := ⟨fun a => by simp [Wanted], by simp, by simp⟩
  obtain ⟨http, stream⟩ := c
  have h1 : Good (addHttp ([], []) http)
      (match http with | none => [] | some h => h.upstream ++ h.server.flatMap (·.upstream)) := by
    cases http with
    | none => exact h0
    | some h => simpa [addHttp] using addAll_good _ _ h.server (tryAdd_good _ _ h.upstream h0)
  cases stream with
  | none => simpa [addStream, Config.outer] using h1
  | some h =>
    have := addAll_good _ _ h.server (tryAdd_good _ _ h.upstream h1)
    simpa [addStream, Config.outer] using this

/-- C59, with the groups of locations left out: the list contains every address of every other group that is not a UDP group,
    nothing else, and each once. -/
theorem C59_health_list_partial (c : Config) :
    (∀ a, a ∈ (getHealthCheck c).map (·.addr) ↔ Wanted c.outer a) ∧ ((getHealthCheck c).map (·.addr)).Nodup := by
  have h := getHealthCheck_good c
  exact ⟨fun a => (h.2.1 a).trans (h.1 a), h.2.2⟩

/-- C59 for configurations without groups in locations. -/
theorem C59_health_list_no_location_partial (c : Config)
    (h1 : ∀ h, c.http = some h → ∀ s ∈ h.server, ∀ l ∈ s.location, l.upstream = [])
    (h2 : ∀ h, c.stream = some h → ∀ s ∈ h.server, ∀ l ∈ s.location, l.upstream = []) :
    (∀ a, a ∈ (getHealthCheck c).map (·.addr) ↔ Wanted c.groups a) ∧ ((getHealthCheck c).map (·.addr)).Nodup := by
  have he : c.groups = c.outer := by
    have key : ∀ l : List Server, (∀ s ∈ l, ∀ x ∈ s.location, x.upstream = []) →
        l.flatMap Server.groups = l.flatMap (·.upstream) := by
      intro l hl
      induction l with
      | nil => rfl
      | cons s r ih =>
        have e : s.location.flatMap (·.upstream) = [] := by
          rw [List.flatMap_eq_nil_iff]; exact hl s (by simp)
        simp only [List.flatMap_cons, Server.groups, e, List.append_nil]
        rw [← ih (fun s hs => hl s (by simp [hs]))]
    obtain ⟨http, stream⟩ := c
    simp only [Config.groups, Config.outer]
    congr 1
    · cases http with
      | none => rfl
      | some h => simp only [key _ (h1 h rfl)]
    · cases stream with
      | none => rfl
      | some h => simp only [key _ (h2 h rfl)]
  rw [he]
  exact C59_health_list_partial c

/-- C59 does not hold for groups given in a location: an address that is only there is never checked. -/
theorem C59_location_fails (c : Config) (a : SockAddr) (h : Wanted c.groups a) (ho : ¬ Wanted c.outer a) :
    ¬ (∀ a, Wanted c.groups a → a ∈ (getHealthCheck c).map (·.addr)) :=
  fun hall => ho (((C59_health_list_partial c).1 a).mp (hall a h))

/-! ### The hypotheses are met -/

def exA (n : Nat) : SockAddr := ⟨.v4 0x0A000001, BitVec.ofNat 16 n⟩

def exC : Config :=
  { http := some { upstream := [⟨"a".toList, "tcp".toList, [exA 1, exA 2]⟩],
                   server := [⟨[⟨"b".toList, [], [exA 2, exA 3]⟩, ⟨"u".toList, "udp".toList, [exA 9]⟩],
                     [⟨[⟨"c".toList, [], [exA 4]⟩]⟩]⟩] }
    stream := some { upstream := [], server := [⟨[⟨"d".toList, [], [exA 1, exA 5]⟩], []⟩] } }

example : (getHealthCheck exC).map (·.addr) = [exA 1, exA 2, exA 3, exA 5] := by decide +kernel

example : Wanted exC.groups (exA 4) ∧ ¬ Wanted exC.outer (exA 4) := by
  constructor
  · exact ⟨⟨"c".toList, [], [exA 4]⟩, by simp [exC, Config.groups, Server.groups], by decide, by simp⟩
  · rintro ⟨g, hg, -, ha⟩
    have : ∀ g ∈ exC.outer, exA 4 ∉ g.server := by decide
    exact this g hg ha

end Wm.HealthList
