import Verif.Model.Listen
import Verif.Props.Reverse
import Mathlib.Data.List.Nodup
/-!
Properties C107 (listeners for HTTP), C108 (blocks are reached through their own addresses), C109 (requests over TLS),
C110 (certificates), C111 (listeners for streams), C112 (streams do not wait for each other), C113 (encryption of the
tunnel).
-/
namespace Wm.Listen
open Wm

/-! ### C107 -/

/-- all addresses of the configuration in the order of the file, with the kind asked for -/
def mentions (bs : List Block) : List (SockAddr × Bool) :=
  bs.flatMap fun b => b.plain.map (·, false) ++ b.tls.map (·, true)

/-- `x` is the first mention of its address -/
def First (ms : List (SockAddr × Bool)) (x : SockAddr × Bool) : Prop :=
  ∃ pre post, ms = pre ++ x :: post ∧ x.1 ∉ pre.map (·.1)

theorem first_mem {ms x} (h : First ms x) : x ∈ ms := by
  obtain ⟨pre, post, rfl, _⟩ := h; simp

theorem first_snoc (ms : List (SockAddr × Bool)) (m x) :
    First (ms ++ [m]) x ↔ First ms x ∨ (x = m ∧ m.1 ∉ ms.map (·.1)) := by
  constructor
  · rintro ⟨pre, post, h, hx⟩
    rcases List.eq_nil_or_concat post with rfl | ⟨l, a, rfl⟩
    · have := List.append_inj' h rfl
      simp only [List.cons.injEq, and_true] at this
      exact .inr ⟨this.2.symm, by rw [this.1, this.2]; exact hx⟩
    · rw [List.concat_eq_append, ← List.cons_append, ← List.append_assoc] at h
      have := List.append_inj' h rfl
      exact .inl ⟨pre, l, this.1, hx⟩
  · rintro (⟨pre, post, rfl, hx⟩ | ⟨rfl, hx⟩)
    · exact ⟨pre, post ++ [m], by simp, hx⟩
    · exact ⟨ms, [], rfl, hx⟩

/-- the listeners after the mentions `ms` -/
structure Opened (ms : List (SockAddr × Bool)) (ls : Listeners) : Prop where
  nodup : (ls.map (·.1)).Nodup
  addr : ∀ a, a ∈ ls.map (·.1) ↔ a ∈ ms.map (·.1)
  kind : ∀ x, x ∈ ls ↔ First ms x

theorem Opened.seen {ms ls} (h : Opened ms ls) {v : SockAddr} (hv : v ∈ ls.map (·.1)) (t) : Opened (ms ++ [(v, t)]) ls := by
  refine ⟨h.nodup, ?_, ?_⟩
  · intro a
    rw [List.map_append, List.mem_append, h.addr]
    constructor
    · exact .inl
    · rintro (h1 | h1)
      · exact h1
      · rw [List.mem_singleton.1 h1]; exact (h.addr v).1 hv
  · intro x
    rw [first_snoc, h.kind]
    constructor
    · exact .inl
    · rintro (h1 | ⟨_, h1⟩)
      · exact h1
      · exact absurd ((h.addr v).1 hv) h1

theorem Opened.new {ms ls} (h : Opened ms ls) {v : SockAddr} (hv : v ∉ ls.map (·.1)) (t) :
    Opened (ms ++ [(v, t)]) (ls ++ [(v, t)]) := by
  refine ⟨?_, ?_, ?_⟩
  · rw [List.map_append]
    refine List.nodup_append.2 ⟨h.nodup, by simp, ?_⟩
    intro a ha b hb
    rw [List.mem_singleton.1 hb]
    rintro rfl
    exact hv ha
  · intro a
    rw [List.map_append, List.map_append, List.mem_append, List.mem_append, h.addr]
  · intro x
    rw [first_snoc, List.mem_append, h.kind, List.mem_singleton]
    constructor
    · rintro (h1 | rfl)
      · exact .inl h1
      · exact .inr ⟨rfl, fun h1 => hv ((h.addr v).2 h1)⟩
    · rintro (h1 | ⟨h1, _⟩)
      · exact .inl h1
      · exact .inr h1

theorem openAll_spec {grants tls cert} (vs : List SockAddr) {ms ls ls'} (h : Opened ms ls)
    (he : openAll grants tls cert vs ls = some ls') :
    Opened (ms ++ vs.map (·, tls)) ls' ∧ (∀ x ∈ ls', x ∈ ls ∨ (x.1 ∈ vs ∧ x.2 = tls ∧ (tls = true → cert = true))) := by
  induction vs generalizing ms ls with
  | nil =>
    simp only [openAll, Option.some.injEq] at he
    subst he
    exact ⟨by simpa using h, fun x hx => .inl hx⟩
  | cons v vs ih =>
    rw [openAll] at he
    by_cases h1 : v ∈ ls.map (·.1)
    · rw [if_pos h1] at he
      have := ih (h.seen h1 tls) he
      refine ⟨by simpa using this.1, fun x hx => ?_⟩
      rcases this.2 x hx with h2 | ⟨h2, h3⟩
      · exact .inl h2
      · exact .inr ⟨List.mem_cons_of_mem _ h2, h3⟩
    · rw [if_neg h1] at he
      by_cases h2 : (tls && !cert) = true
      · rw [if_pos h2] at he; cases he
      · rw [if_neg h2] at he
        by_cases h3 : grants (ls.map (·.1)) v = true
        · rw [if_pos h3] at he
          have := ih (h.new h1 tls) he
          refine ⟨by simpa using this.1, fun x hx => ?_⟩
          rcases this.2 x hx with h4 | ⟨h4, h5⟩
          · rcases List.mem_append.1 h4 with h4 | h4
            · exact .inl h4
            · rw [List.mem_singleton.1 h4]
              refine .inr ⟨by simp, rfl, fun ht => ?_⟩
              cases cert <;> simp_all
          · exact .inr ⟨List.mem_cons_of_mem _ h4, h5⟩
        · rw [if_neg h3] at he; cases he

theorem bindHttp_spec {grants} (bs : List Block) {ms ls ls'} (h : Opened ms ls) (he : bindHttp grants bs ls = some ls') :
    Opened (ms ++ mentions bs) ls' ∧ (∀ b ∈ bs, b.cert ≠ .bad) ∧
    (∀ x ∈ ls', x ∈ ls ∨ x.2 = false ∨ ∃ b ∈ bs, x.1 ∈ b.tls ∧ b.cert = .good) := by
  induction bs generalizing ms ls with
  | nil =>
    simp only [bindHttp, Option.some.injEq] at he
    subst he
    exact ⟨by simpa [mentions] using h, by simp, fun x hx => .inl hx⟩
  | cons b bs ih =>
    rw [bindHttp] at he
    by_cases hb : b.cert = .bad
    · rw [if_pos hb] at he; cases he
    · rw [if_neg hb] at he
      cases h1 : openAll grants false (b.cert == .good) b.plain ls with
      | none => rw [h1] at he; cases he
      | some ls1 =>
        rw [h1] at he
        dsimp only at he
        cases h2 : openAll grants true (b.cert == .good) b.tls ls1 with
        | none => rw [h2] at he; cases he
        | some ls2 =>
          rw [h2] at he
          dsimp only at he
          have s1 := openAll_spec b.plain h h1
          have s2 := openAll_spec b.tls s1.1 h2
          have s3 := ih s2.1 he
          refine ⟨?_, ?_, ?_⟩
          · have := s3.1
            simpa [mentions, List.append_assoc] using this
          · intro x hx
            rcases List.mem_cons.1 hx with rfl | hx
            · exact hb
            · exact s3.2.1 x hx
          · intro x hx
            rcases s3.2.2 x hx with h4 | h4 | ⟨c, hc, h4⟩
            · rcases s2.2 x h4 with h5 | ⟨h5, _, h6⟩
              · rcases s1.2 x h5 with h7 | ⟨_, h7, _⟩
                · exact .inl h7
                · exact .inr (.inl h7)
              · refine .inr (.inr ⟨b, by simp, h5, ?_⟩)
                simpa using h6 rfl
            · exact .inr (.inl h4)
            · exact .inr (.inr ⟨c, List.mem_cons_of_mem _ hc, h4⟩)

theorem opened_nil : Opened [] [] := by
  refine ⟨by simp, by simp, ?_⟩
  intro x
  constructor
  · intro h; cases h
  · rintro ⟨pre, post, h, _⟩; cases pre <;> cases h

/-- **C107**: when the service starts, each address of the configuration has exactly one listener, and no other address
    has one; a listener speaks TLS only if some block with a usable certificate asks for it, and no block has a
    certificate that cannot be used. -/
theorem C107_listeners (grants : List SockAddr → SockAddr → Bool) (bs : List Block) (ls : Listeners)
    (h : bindHttp grants bs [] = some ls) :
    (ls.map (·.1)).Nodup ∧ (∀ a, a ∈ ls.map (·.1) ↔ ∃ b ∈ bs, a ∈ b.plain ∨ a ∈ b.tls) ∧
    (∀ a, (a, true) ∈ ls → ∃ b ∈ bs, a ∈ b.tls ∧ b.cert = .good) ∧ (∀ b ∈ bs, b.cert ≠ .bad) := by
  have hs := bindHttp_spec bs opened_nil h
  rw [List.nil_append] at hs
  refine ⟨hs.1.nodup, ?_, ?_, hs.2.1⟩
  · intro a
    rw [hs.1.addr]
    simp only [mentions, List.map_flatMap, List.mem_flatMap, List.map_append, List.mem_append, List.map_map]
    simp [Function.comp_def]
  · intro a ha
    rcases hs.2.2 _ ha with h1 | h1 | h1
    · cases h1
    · cases h1
    · exact h1

/-- **C107** (exactly): a listener has the kind of the first mention of its address in the configuration. -/
theorem C107_kind_exact (grants : List SockAddr → SockAddr → Bool) (bs : List Block) (ls : Listeners)
    (h : bindHttp grants bs [] = some ls) (a : SockAddr) (t : Bool) :
    (a, t) ∈ ls ↔ ∃ pre post, mentions bs = pre ++ (a, t) :: post ∧ ∀ t', (a, t') ∉ pre := by
  have hs := (bindHttp_spec bs opened_nil h).1.kind (a, t)
  rw [List.nil_append] at hs
  rw [hs]
  constructor
  · rintro ⟨pre, post, h1, h2⟩
    exact ⟨pre, post, h1, fun t' ht => h2 (List.mem_map.2 ⟨_, ht, rfl⟩)⟩
  · rintro ⟨pre, post, h1, h2⟩
    refine ⟨pre, post, h1, fun hm => ?_⟩
    obtain ⟨x, hx, he⟩ := List.mem_map.1 hm
    dsimp only at he
    exact h2 x.2 (by rw [← he]; exact hx)

theorem mem_mentions {bs : List Block} {a t} :
    (a, t) ∈ mentions bs ↔ ∃ b ∈ bs, a ∈ (if t then b.tls else b.plain) := by
  simp only [mentions, List.mem_flatMap, List.mem_append, List.mem_map, Prod.mk.injEq]
  cases t <;> simp

/-- **C107**, partial: if no address is configured both with and without TLS, then a listener speaks TLS exactly if its address
    is configured with TLS. Missing: see `C107_plain_wins_fails`. -/
theorem C107_kind_partial (grants : List SockAddr → SockAddr → Bool) (bs : List Block) (ls : Listeners)
    (h : bindHttp grants bs [] = some ls)
    (hd : ∀ b ∈ bs, ∀ c ∈ bs, ∀ a, a ∈ b.plain → a ∉ c.tls) (a : SockAddr) (t : Bool) (ha : (a, t) ∈ ls) :
    t = true ↔ ∃ b ∈ bs, a ∈ b.tls := by
  obtain ⟨pre, post, h1, -⟩ := (C107_kind_exact grants bs ls h a t).1 ha
  have hm : (a, t) ∈ mentions bs := by rw [h1]; simp
  obtain ⟨b, hb, hab⟩ := mem_mentions.1 hm
  cases t with
  | true => exact ⟨fun _ => ⟨b, hb, hab⟩, fun _ => rfl⟩
  | false =>
    refine ⟨fun ht => absurd ht (by simp), ?_⟩
    rintro ⟨c, hc, hac⟩
    exact absurd hac (hd b hb c hc a hab)

theorem first_unique {ms : List (SockAddr × Bool)} {a t t'} (h1 : First ms (a, t)) (h2 : First ms (a, t')) : t = t' := by
  obtain ⟨p, q, e1, n1⟩ := h1
  obtain ⟨p', q', e2, n2⟩ := h2
  rw [e1] at e2
  rcases List.append_eq_append_iff.1 e2 with ⟨r, hr1, hr2⟩ | ⟨r, hr1, hr2⟩
  · cases r with
    | nil => simp at hr2; exact hr2.1
    | cons x r =>
      simp only [List.cons_append, List.cons.injEq] at hr2
      exfalso; apply n2; rw [hr1, ← hr2.1]; simp
  · cases r with
    | nil => simp at hr2; exact hr2.1.symm
    | cons x r =>
      simp only [List.cons_append, List.cons.injEq] at hr2
      exfalso; apply n1; rw [hr1, ← hr2.1]; simp

/-- **C107** fails when an address is also configured without TLS, in the same block or in an earlier one: it is listened on
    in the clear, though a block asks for TLS there. -/
theorem C107_plain_wins_fails (grants : List SockAddr → SockAddr → Bool) (pre post : List Block) (b : Block) (a : SockAddr)
    (hp : a ∈ b.plain) (ht : ∃ c ∈ b :: post, a ∈ c.tls) (hpre : ∀ c ∈ pre, a ∉ c.tls) (ls : Listeners)
    (h : bindHttp grants (pre ++ b :: post) [] = some ls) :
    (∃ c ∈ pre ++ b :: post, a ∈ c.tls) ∧ (a, false) ∈ ls ∧ (a, true) ∉ ls := by
  have hs := (bindHttp_spec _ opened_nil h).1
  rw [List.nil_append] at hs
  have hf : First (mentions (pre ++ b :: post)) (a, false) := by
    have hmem2 : (a, false) ∈ mentions pre ++ b.plain.map (·, false) := by simp [hp]
    obtain ⟨x, y, hxy, hn⟩ := List.eq_append_cons_of_mem hmem2
    refine ⟨x, y ++ b.tls.map (·, true) ++ mentions post, ?_, ?_⟩
    · have : mentions (pre ++ b :: post) = (mentions pre ++ b.plain.map (·, false)) ++ (b.tls.map (·, true) ++ mentions post) := by
        simp [mentions]
      rw [this, hxy]; simp
    · intro hm
      obtain ⟨z, hz, he⟩ := List.mem_map.1 hm
      obtain ⟨z1, z2⟩ := z
      dsimp only at he
      subst he
      have hz' : (z1, z2) ∈ mentions pre ++ b.plain.map (·, false) := by rw [hxy]; simp [hz]
      cases z2 with
      | false => exact hn hz
      | true =>
        rcases List.mem_append.1 hz' with h1 | h1
        · obtain ⟨c, hc, hac⟩ := mem_mentions.1 h1
          exact hpre c hc hac
        · simp at h1
  refine ⟨?_, (hs.kind _).2 hf, fun ht => ?_⟩
  · obtain ⟨c, hc, hac⟩ := ht
    exact ⟨c, List.mem_append_right _ hc, hac⟩
  · exact absurd (first_unique hf ((hs.kind _).1 ht)) (by simp)

theorem openAll_some {grants tls cert} (hg : ∀ o a, grants o a = true) (hc : tls = true → cert = true)
    (vs : List SockAddr) (ls) : ∃ ls', openAll grants tls cert vs ls = some ls' := by
  induction vs generalizing ls with
  | nil => exact ⟨ls, rfl⟩
  | cons v vs ih =>
    rw [openAll]
    split
    · exact ih ls
    · rw [if_neg (by cases tls <;> simp_all), if_pos (hg _ _)]
      exact ih _

/-- **C107** (start): if all addresses can be opened, every certificate can be used and every block with TLS addresses has
    one, the service starts. -/
theorem C107_starts (grants : List SockAddr → SockAddr → Bool) (hg : ∀ o a, grants o a = true) (bs : List Block)
    (hb : ∀ b ∈ bs, b.cert ≠ .bad ∧ (b.tls ≠ [] → b.cert = .good)) (ls : Listeners) :
    ∃ ls', bindHttp grants bs ls = some ls' := by
  induction bs generalizing ls with
  | nil => exact ⟨ls, rfl⟩
  | cons b bs ih =>
    have h1 := hb b (by simp)
    rw [bindHttp, if_neg h1.1]
    obtain ⟨ls1, e1⟩ := openAll_some (tls := false) (cert := b.cert == .good) hg (by simp) b.plain ls
    rw [e1]
    dsimp only
    have : ∃ ls2, openAll grants true (b.cert == .good) b.tls ls1 = some ls2 := by
      by_cases hn : b.tls = []
      · exact ⟨ls1, by rw [hn]; rfl⟩
      · exact openAll_some hg (fun _ => by simp [h1.2 hn]) b.tls ls1
    obtain ⟨ls2, e2⟩ := this
    rw [e2]
    exact ih (fun c hc => hb c (List.mem_cons_of_mem _ hc)) ls2

/-! ### C108, C109 -/

/-- the block has an address with this port -/
def Block.For (b : Block) (port : BitVec 16) : Prop := ∃ a ∈ b.plain ++ b.tls, a.port = port

theorem mem_portBlocks {bs : List Block} {port b} :
    b ∈ portBlocks bs port ↔ b ∈ bs ∧ b.For port := by
  simp only [Block.For, portBlocks, List.mem_filter, Bool.or_eq_true, List.any_eq_true, beq_iff_eq, List.mem_append]
  constructor
  · rintro ⟨h, ⟨a, ha, e⟩ | ⟨a, ha, e⟩⟩
    · exact ⟨h, a, .inl ha, e⟩
    · exact ⟨h, a, .inr ha, e⟩
  · rintro ⟨h, a, ha | ha, e⟩
    · exact ⟨h, .inl ⟨a, ha, e⟩⟩
    · exact ⟨h, .inr ⟨a, ha, e⟩⟩

theorem selectServer_mem {host ss s} (h : Reverse.selectServer host ss = some s) : s ∈ ss := by
  by_cases hne : ss = []
  · rw [hne] at h; cases h
  · obtain ⟨pre, s', post, e, e2, -⟩ := Reverse.C45_server host ss hne
    rw [h] at e2
    injection e2 with e2
    rw [e, e2]; simp

theorem bySni_mem {bs : List Block} {sni b} (h : b ∈ bySni bs sni) : b ∈ bs := by
  cases sni with
  | none => exact h
  | some n =>
    simp only [bySni] at h
    split at h
    · rename_i c hc
      rw [List.mem_singleton.1 h]; exact List.mem_of_find?_eq_some hc
    · exact h

/-- **C108**, partial: the block that serves a request is configured for the port to which the connection was made. Missing: for
    the address, see `C108_other_address_fails`. -/
theorem C108_port_partial (bs : List Block) (l : SockAddr × Bool) (sni : Option Text) (host : Text) (s : Reverse.Server)
    (h : serving bs l sni host = some s) :
    ∃ b ∈ bs, b.server = s ∧ ∃ a ∈ b.plain ++ b.tls, a.port = l.1.port := by
  have hm := selectServer_mem h
  obtain ⟨b, hb, rfl⟩ := List.mem_map.1 hm
  have hb' : b ∈ portBlocks bs l.1.port := by
    by_cases ht : l.2 = true
    · rw [if_pos ht] at hb; exact bySni_mem hb
    · rw [if_neg ht] at hb; exact hb
  obtain ⟨h1, h2⟩ := mem_portBlocks.1 hb'
  exact ⟨b, h1, rfl, h2⟩

/-- **C108**, partial: if no two different addresses of the configuration have the same port, the block that serves a request is
    configured for the address to which the connection was made. -/
theorem C108_address_partial (bs : List Block) (l : SockAddr × Bool) (sni : Option Text) (host : Text) (s : Reverse.Server)
    (h : serving bs l sni host = some s) (hl : ∃ b ∈ bs, l.1 ∈ b.plain ++ b.tls)
    (hu : ∀ b ∈ bs, ∀ c ∈ bs, ∀ x ∈ b.plain ++ b.tls, ∀ y ∈ c.plain ++ c.tls, x.port = y.port → x = y) :
    ∃ b ∈ bs, b.server = s ∧ l.1 ∈ b.plain ++ b.tls := by
  obtain ⟨b, hb, hs, a, ha, hp⟩ := C108_port_partial bs l sni host s h
  obtain ⟨c, hc, hlc⟩ := hl
  refine ⟨b, hb, hs, ?_⟩
  rw [← hu b hb c hc a ha l.1 hlc hp]
  exact ha

theorem selectServer_named {host : Text} (pre post : List Reverse.Server) (s : Reverse.Server) (hh : host ≠ [])
    (hs : s.name = host) (hpre : ∀ t ∈ pre, t.name ≠ host) : Reverse.selectServer host (pre ++ s :: post) = some s := by
  induction pre with
  | nil =>
    cases post with
    | nil => rfl
    | cons t ts => simp [Reverse.selectServer, hs]
  | cons t pre ih =>
    have h1 := hpre t (by simp)
    cases hp : pre ++ s :: post with
    | nil => simp at hp
    | cons u us =>
      rw [List.cons_append, hp, Reverse.selectServer, if_neg (by simp [h1, hh]), ← hp]
      exact ih fun x hx => hpre x (List.mem_cons_of_mem _ hx)

/-- **C108** fails: a block that is configured for one address only (say, an internal one, or one with TLS) serves requests that
    come to any other address with the same port, as soon as they name it; `l` is any listener without TLS, in no relation to the
    block but for the port. -/
theorem C108_other_address_fails (pre post : List Block) (b : Block) (hname : b.server.name ≠ [])
    (hpre : ∀ c ∈ pre, c.server.name ≠ b.server.name) (own : SockAddr) (ho : own ∈ b.plain ++ b.tls) (l : SockAddr)
    (hl : l.port = own.port) (sni : Option Text) :
    serving (pre ++ b :: post) (l, false) sni b.server.name = some b.server := by
  have hb : b ∈ portBlocks [b] l.port := mem_portBlocks.2 ⟨by simp, own, ho, hl.symm⟩
  have e : portBlocks (pre ++ b :: post) l.port = portBlocks pre l.port ++ b :: portBlocks post l.port := by
    have : portBlocks [b] l.port = [b] := by
      exact List.filter_eq_self.2 fun c hc => by
        rw [List.mem_singleton.1 hc]; exact (List.mem_filter.1 hb).2
    have h2 : pre ++ b :: post = pre ++ [b] ++ post := by simp
    rw [h2]
    unfold portBlocks at this ⊢
    rw [List.filter_append, List.filter_append, this]
    simp
  unfold serving
  simp only [Bool.false_eq_true, if_false, e, List.map_append, List.map_cons]
  refine selectServer_named _ _ _ hname rfl ?_
  intro t ht
  obtain ⟨c, hc, rfl⟩ := List.mem_map.1 ht
  exact hpre c (mem_portBlocks.1 hc).1

theorem selectServer_find {host : Text} (hh : host ≠ []) (bs : List Block) (b : Block)
    (hf : bs.find? (fun b => b.server.name == host) = some b) :
    Reverse.selectServer host (bs.map (·.server)) = some b.server := by
  obtain ⟨h1, pre, post, rfl, h2⟩ := List.find?_eq_some_iff_append.1 hf
  rw [List.map_append, List.map_cons]
  refine selectServer_named _ _ _ hh (by simpa using h1) ?_
  intro t ht
  obtain ⟨c, hc, rfl⟩ := List.mem_map.1 ht
  have := h2 c hc
  simpa using this

/-- **C109**, partial: a request over TLS whose host is the name the client asked for when it connected (or if it asked for
    none, or for one that is no block's) is served by the same block as without TLS. -/
theorem C109_same_name_partial (bs : List Block) (l : SockAddr) (sni : Option Text) (host : Text) (hh : host ≠ [])
    (hs : ∀ n, sni = some n → n = host ∨ ∀ b ∈ bs, b.For l.port → b.server.name ≠ n) :
    serving bs (l, true) sni host = serving bs (l, false) sni host := by
  unfold serving
  simp only [Bool.false_eq_true, if_false, if_true]
  cases sni with
  | none => rfl
  | some n =>
    simp only [bySni]
    cases hf : (portBlocks bs l.port).find? (fun b => b.server.name == n) with
    | none => rfl
    | some b =>
      rcases hs n rfl with rfl | h
      · rw [selectServer_find hh _ b hf]; rfl
      · have := List.find?_some hf
        have hm := mem_portBlocks.1 (List.mem_of_find?_eq_some hf)
        exact absurd (by simpa using this) (h b hm.1 hm.2)

theorem portBlocks_append (xs ys : List Block) (port : BitVec 16) :
    portBlocks (xs ++ ys) port = portBlocks xs port ++ portBlocks ys port := List.filter_append ..

theorem portBlocks_for {b : Block} {port : BitVec 16} (h : b.For port) (bs : List Block) :
    portBlocks (b :: bs) port = b :: portBlocks bs port := by
  have hb : b ∈ portBlocks [b] port := mem_portBlocks.2 ⟨by simp, h⟩
  unfold portBlocks at *
  rw [List.mem_filter] at hb
  exact List.filter_cons_of_pos hb.2

/-- **C109** fails: once the client has asked for a block's name when it connected, all requests of the connection are
    served by this block (the first of that name for the port), whatever host they name, and whatever blocks there are for these
    hosts. -/
theorem C109_sni_fails (pre post : List Block) (l : SockAddr) (b : Block) (hb : b.For l.port)
    (hpre : ∀ c ∈ pre, c.For l.port → c.server.name ≠ b.server.name) (host : Text) :
    serving (pre ++ b :: post) (l, true) (some b.server.name) host = some b.server := by
  have hb : (portBlocks (pre ++ b :: post) l.port).find? (fun c => c.server.name == b.server.name) = some b := by
    rw [portBlocks_append, portBlocks_for hb, List.find?_append, List.find?_eq_none.2]
    · simp
    · intro c hc
      have hm := mem_portBlocks.1 hc
      simpa using hpre c hm.1 hm.2
  simp only [serving, if_true, bySni, hb]
  rfl

/-! ### C110 -/

/-- **C110** (certificate): with several blocks, the certificate shown to a client belongs to the last block with a certificate whose
    domain (or name, if it has none) is what the client asked for. -/
theorem C110_shown (bs : List Block) (hn : bs.length ≠ 1) (n : Text) (b : Block) :
    shown bs (some n) = some b ↔
      ∃ pre post, bs = pre ++ b :: post ∧ b.cert = .good ∧ b.domain.getD b.server.name = n ∧
        ∀ c ∈ post, ¬ (c.cert = .good ∧ c.domain.getD c.server.name = n) := by
  have hs : shown bs (some n) = bs.reverse.find? (fun b => b.cert == .good && certName b == n) := by
    cases bs with
    | nil => rfl
    | cons x xs =>
      cases xs with
      | nil => exact absurd rfl hn
      | cons y ys => rfl
  rw [hs, List.find?_eq_some_iff_append]
  constructor
  · rintro ⟨h1, as, cs, e, h2⟩
    refine ⟨cs.reverse, as.reverse, ?_, ?_⟩
    · have := congrArg List.reverse e
      simpa using this
    · simp only [Bool.and_eq_true, beq_iff_eq, certName] at h1
      refine ⟨h1.1, h1.2, ?_⟩
      intro c hc hc'
      have := h2 c (List.mem_reverse.1 hc)
      simp [hc'.1, certName, hc'.2] at this
  · rintro ⟨pre, post, rfl, h1, h2, h3⟩
    refine ⟨by simp [h1, certName, h2], post.reverse, pre.reverse, by simp, ?_⟩
    intro c hc
    have := h3 c (List.mem_reverse.1 hc)
    simp only [Bool.not_eq_true', Bool.and_eq_false_iff, beq_eq_false_iff_ne, certName]
    by_cases h4 : c.cert = .good
    · exact .inr fun h5 => this ⟨h4, h5⟩
    · exact .inl h4

/-- **C110** (one block): with a single block its certificate is shown, if it can be used, whatever name the client asks for; with
    several, none is shown to a client that asks for no name. -/
theorem C110_single (b : Block) (sni : Option Text) (bs : List Block) (hn : bs.length ≠ 1) :
    (∀ c, shown [b] sni = some c ↔ c = b ∧ b.cert = .good) ∧ shown bs none = none := by
  refine ⟨fun c => ?_, ?_⟩
  · unfold shown
    by_cases hb : b.cert = .good
    · simp [hb, eq_comm]
    · simp [hb]
  · match bs with
    | [] => rfl
    | [x] => exact absurd rfl hn
    | x :: y :: ys => rfl

/-- **C110**, partial: if the names of the blocks differ and none has a domain, a client that asks for a name and is shown a
    block's certificate is served by this block, if it is configured for the port. -/
theorem C110_served_partial (bs : List Block) (hn : bs.length ≠ 1) (n : Text) (b : Block)
    (hs : shown bs (some n) = some b) (hdom : ∀ c ∈ bs, c.domain = none)
    (huniq : ∀ c ∈ bs, ∀ d ∈ bs, c.server.name = d.server.name → c = d) (l : SockAddr)
    (hp : ∃ a ∈ b.plain ++ b.tls, a.port = l.port) (host : Text) :
    serving bs (l, true) (some n) host = some b.server := by
  obtain ⟨pre, post, e, -, hname, -⟩ := (C110_shown bs hn n b).1 hs
  have hb : b ∈ bs := by rw [e]; simp
  rw [hdom b hb] at hname
  obtain ⟨pre, post, e, hbp⟩ := List.eq_append_cons_of_mem hb
  have hname : b.server.name = n := hname
  subst hname
  rw [e]
  refine C109_sni_fails pre post l b hp (fun c hc _ h => ?_) host
  exact hbp (huniq c (by rw [e]; simp [hc]) b hb h ▸ hc)

theorem selectServer_unnamed {host : Text} (hh : host ≠ []) (ss : List Reverse.Server) (s : Reverse.Server)
    (h : ∀ t ∈ ss, t.name ≠ host) : Reverse.selectServer host (ss ++ [s]) = some s := by
  induction ss with
  | nil => rfl
  | cons t ss ih =>
    have h1 := h t (by simp)
    cases hp : ss ++ [s] with
    | nil => simp at hp
    | cons u us =>
      rw [List.cons_append, hp, Reverse.selectServer, if_neg (by simp [h1, hh]), ← hp]
      exact ih fun x hx => h x (List.mem_cons_of_mem _ hx)

/-- **C110** fails for blocks with a domain: a client that asks for the domain, is shown the certificate of the block with
    this domain, and names the domain in its request, is served by the last block for the port, unless some block's *name* is the
    domain. -/
theorem C110_domain_fails (bs : List Block) (n : Text) (hn : n ≠ []) (l : SockAddr) (pre post : List Block) (last : Block)
    (hbs : bs = pre ++ last :: post) (hlast : last.For l.port) (hpost : ∀ c ∈ post, ¬ c.For l.port) (hnames : ∀ c ∈ bs, c.server.name ≠ n) :
    serving bs (l, true) (some n) n = some last.server := by
  have hl : portBlocks bs l.port = portBlocks pre l.port ++ [last] := by
    rw [hbs, portBlocks_append, portBlocks_for hlast]
    congr 2
    exact List.eq_nil_iff_forall_not_mem.2 fun c hc => hpost c (mem_portBlocks.1 hc).1 (mem_portBlocks.1 hc).2
  have hnm : ∀ c ∈ portBlocks bs l.port, c.server.name ≠ n := fun c hc => hnames c (mem_portBlocks.1 hc).1
  have hf : (portBlocks bs l.port).find? (fun b => b.server.name == n) = none := by
    rw [List.find?_eq_none]
    intro c hc
    simpa using hnm c hc
  simp only [serving, if_true, bySni, hf]
  rw [hl, List.map_append, List.map_cons, List.map_nil]
  refine selectServer_unnamed hn _ _ ?_
  intro t ht
  obtain ⟨c, hc, rfl⟩ := List.mem_map.1 ht
  exact hnm c (by rw [hl]; simp [hc])

/-! ### C111 -/

/-- the listeners for streams after the mentions `ms` -/
structure StreamOpened (ms : List (SockAddr × StreamBlock)) (ls : List (SockAddr × StreamBlock)) : Prop where
  nodup : (ls.map (·.1.port)).Nodup
  ports : ∀ p, p ∈ ls.map (·.1.port) ↔ p ∈ ms.map (·.1.port)
  first : ∀ x ∈ ls, ∃ pre post, ms = pre ++ x :: post ∧ x.1.port ∉ pre.map (·.1.port)

theorem StreamOpened.seen {ms ls} (h : StreamOpened ms ls) {x : SockAddr × StreamBlock}
    (hx : x.1.port ∈ ls.map (·.1.port)) : StreamOpened (ms ++ [x]) ls := by
  refine ⟨h.nodup, ?_, ?_⟩
  · intro p
    rw [List.map_append, List.mem_append, h.ports]
    constructor
    · exact .inl
    · rintro (h1 | h1)
      · exact h1
      · rw [List.mem_singleton.1 h1]; exact (h.ports _).1 hx
  · intro y hy
    obtain ⟨pre, post, rfl, h1⟩ := h.first y hy
    exact ⟨pre, post ++ [x], by simp, h1⟩

theorem StreamOpened.new {ms ls} (h : StreamOpened ms ls) {x : SockAddr × StreamBlock}
    (hx : x.1.port ∉ ls.map (·.1.port)) : StreamOpened (ms ++ [x]) (ls ++ [x]) := by
  refine ⟨?_, ?_, ?_⟩
  · rw [List.map_append]
    refine List.nodup_append.2 ⟨h.nodup, by simp, ?_⟩
    intro a ha b hb
    rw [List.mem_singleton.1 hb]
    rintro rfl
    exact hx ha
  · intro p
    rw [List.map_append, List.map_append, List.mem_append, List.mem_append, h.ports]
  · intro y hy
    rcases List.mem_append.1 hy with hy | hy
    · obtain ⟨pre, post, rfl, h1⟩ := h.first y hy
      exact ⟨pre, post ++ [x], by simp, h1⟩
    · rw [List.mem_singleton.1 hy]
      exact ⟨ms, [], rfl, fun hm => hx ((h.ports _).2 hm)⟩

theorem streamAddrs_spec {grants b} (vs : List SockAddr) {ms ls ls'} (h : StreamOpened ms ls)
    (he : streamAddrs grants b vs ls = some ls') : StreamOpened (ms ++ vs.map (·, b)) ls' := by
  induction vs generalizing ms ls with
  | nil =>
    simp only [streamAddrs, Option.some.injEq] at he
    subst he
    simpa using h
  | cons v vs ih =>
    rw [streamAddrs] at he
    by_cases h1 : v.port ∈ ls.map (·.1.port)
    · rw [if_pos h1] at he
      simpa using ih (h.seen (x := (v, b)) h1) he
    · rw [if_neg h1] at he
      by_cases h2 : grants (ls.map (·.1)) v = true
      · rw [if_pos h2] at he
        simpa using ih (h.new (x := (v, b)) h1) he
      · rw [if_neg h2] at he; cases he

/-- all stream addresses in the order of the file, with their blocks -/
def streamMentions (bs : List StreamBlock) : List (SockAddr × StreamBlock) := bs.flatMap fun b => b.addrs.map (·, b)

theorem streamBind_spec {grants} (bs : List StreamBlock) {ms ls ls'} (h : StreamOpened ms ls)
    (he : streamBind grants bs ls = some ls') : StreamOpened (ms ++ streamMentions bs) ls' := by
  induction bs generalizing ms ls with
  | nil =>
    simp only [streamBind, Option.some.injEq] at he
    subst he
    simpa [streamMentions] using h
  | cons b bs ih =>
    rw [streamBind] at he
    cases h1 : streamAddrs grants b b.addrs ls with
    | none => rw [h1] at he; cases he
    | some ls1 =>
      rw [h1] at he
      have := ih (streamAddrs_spec b.addrs h h1) he
      simpa [streamMentions] using this

theorem streamOpened_nil : StreamOpened [] [] := ⟨by simp, by simp, by simp⟩

theorem mem_streamMentions {bs : List StreamBlock} {a b} : (a, b) ∈ streamMentions bs ↔ b ∈ bs ∧ a ∈ b.addrs := by
  simp only [streamMentions, List.mem_flatMap, List.mem_map, Prod.mk.injEq]
  constructor
  · rintro ⟨c, hc, x, hx, rfl, rfl⟩; exact ⟨hc, hx⟩
  · rintro ⟨hb, ha⟩; exact ⟨b, hb, a, ha, rfl, rfl⟩

/-- **C111** (own block): every listener for streams is opened for an address of the configuration, and a connection to it
    is served by the block for which it was opened. -/
theorem C111_own_block (grants : List SockAddr → SockAddr → Bool) (bs : List StreamBlock)
    (ls : List (SockAddr × StreamBlock)) (h : streamBind grants bs [] = some ls) (a : SockAddr) (b : StreamBlock)
    (hl : (a, b) ∈ ls) : b ∈ bs ∧ a ∈ b.addrs ∧ streamPick bs a.port = some b := by
  have hs := streamBind_spec bs streamOpened_nil h
  rw [List.nil_append] at hs
  obtain ⟨pre, post, e, hn⟩ := hs.first _ hl
  have hm : (a, b) ∈ streamMentions bs := by rw [e]; simp
  obtain ⟨hb, ha⟩ := mem_streamMentions.1 hm
  refine ⟨hb, ha, ?_⟩
  -- the first block with the port
  unfold streamPick
  clear h hs hl hm
  induction bs generalizing pre with
  | nil => cases hb
  | cons c bs ih =>
    rw [List.find?_cons]
    by_cases hc : c.addrs.any (·.port == a.port) = true
    · rw [hc]
      dsimp only
      obtain ⟨x, hx, hxp⟩ := List.any_eq_true.1 hc
      rw [beq_iff_eq] at hxp
      have e' : c.addrs.map (·, c) ++ streamMentions bs = pre ++ (a, b) :: post := by
        rw [← e]; simp [streamMentions]
      rcases List.append_eq_append_iff.1 e' with ⟨r, hr1, hr2⟩ | ⟨r, hr1, hr2⟩
      · exfalso
        apply hn
        rw [hr1]
        refine List.mem_map.2 ⟨(x, c), ?_, hxp⟩
        exact List.mem_append_left _ (List.mem_map.2 ⟨x, hx, rfl⟩)
      · cases r with
        | nil =>
          exfalso
          apply hn
          rw [← List.append_nil pre, ← hr1]
          exact List.mem_map.2 ⟨(x, c), List.mem_map.2 ⟨x, hx, rfl⟩, hxp⟩
        | cons y r =>
          simp only [List.cons_append, List.cons.injEq] at hr2
          have : (a, b) ∈ c.addrs.map (·, c) := by rw [hr1, hr2.1]; simp
          obtain ⟨z, _, hz⟩ := List.mem_map.1 this
          simp only [Prod.mk.injEq] at hz
          rw [hz.2]
    · have hc' : c.addrs.any (·.port == a.port) = false := by simpa using hc
      rw [hc']
      dsimp only
      have hnc : ∀ x ∈ c.addrs, x.port ≠ a.port := by
        intro x hx hxp
        exact hc (List.any_eq_true.2 ⟨x, hx, by simpa using hxp⟩)
      have hbc : b ≠ c := by
        rintro rfl; exact hnc a ha rfl
      have hb' : b ∈ bs := by
        rcases List.mem_cons.1 hb with rfl | hb
        · exact absurd rfl hbc
        · exact hb
      have e' : c.addrs.map (·, c) ++ streamMentions bs = pre ++ (a, b) :: post := by
        rw [← e]; simp [streamMentions]
      rcases List.append_eq_append_iff.1 e' with ⟨r, hr1, hr2⟩ | ⟨r, hr1, hr2⟩
      · refine ih r hr2 ?_ hb'
        intro hm
        apply hn
        rw [hr1, List.map_append]
        exact List.mem_append_right _ hm
      · cases r with
        | nil =>
          refine ih [] (by simpa using hr2.symm) (by simp) hb'
        | cons y r =>
          simp only [List.cons_append, List.cons.injEq] at hr2
          have : (a, b) ∈ c.addrs.map (·, c) := by rw [hr1, hr2.1]; simp
          obtain ⟨z, _, hz⟩ := List.mem_map.1 this
          simp only [Prod.mk.injEq] at hz
          exact absurd hz.2.symm hbc

/-- **C111**, partial: every port of the configuration is listened on, at one of its addresses. Missing: at all of them, see
    below. -/
theorem C111_ports_partial (grants : List SockAddr → SockAddr → Bool) (bs : List StreamBlock)
    (ls : List (SockAddr × StreamBlock)) (h : streamBind grants bs [] = some ls) (b : StreamBlock) (hb : b ∈ bs)
    (a : SockAddr) (ha : a ∈ b.addrs) : ∃ x ∈ ls, x.1.port = a.port := by
  have hs := streamBind_spec bs streamOpened_nil h
  rw [List.nil_append] at hs
  have := (hs.ports a.port).2 (List.mem_map.2 ⟨(a, b), mem_streamMentions.2 ⟨hb, ha⟩, rfl⟩)
  obtain ⟨x, hx, e⟩ := List.mem_map.1 this
  exact ⟨x, hx, e⟩

/-- **C111** fails for a second address with the same port, for instance for the second of the addresses that stand for ":8869"
    (src/config/wrap.rs:64-65), or for the same address with UDP: of two different mentions of a port at most one is
    listened on. -/
theorem C111_same_port_fails (grants : List SockAddr → SockAddr → Bool) (bs : List StreamBlock)
    (ls : List (SockAddr × StreamBlock)) (h : streamBind grants bs [] = some ls) (x y : SockAddr × StreamBlock)
    (hne : x ≠ y) (hp : x.1.port = y.1.port) : ¬ (x ∈ ls ∧ y ∈ ls) := by
  have hs := streamBind_spec bs streamOpened_nil h
  rintro ⟨hx, hy⟩
  exact hne (List.inj_on_of_nodup_map hs.nodup hx hy hp)

/-! ### C112 -/

/-- all that is known of the connections -/
structure TcpInv (s : Tcp) : Prop where
  started : s.started = List.range (s.started.length)
  rest : s.started ++ s.waiting = List.range s.next
  ended : s.started = s.ended ++ s.active.toList
  idle : s.active = none → s.waiting = []

theorem tcp_inv (es : List TcpEvent) : TcpInv (Tcp.run es) := by
  induction es using List.reverseRecOn with
  | nil => exact ⟨rfl, rfl, rfl, fun _ => rfl⟩
  | append_singleton es e ih =>
    rw [Tcp.run, List.foldl_append]
    change TcpInv (Tcp.step (Tcp.run es) e)
    generalize Tcp.run es = s at ih ⊢
    obtain ⟨h1, h2, h3, h4⟩ := ih
    have pref : ∀ l : List Nat, l <+: List.range s.next → l = List.range l.length := by
      intro l hl
      have := List.prefix_iff_eq_take.1 hl
      rw [List.take_range] at this
      have hle : l.length ≤ s.next := by simpa using hl.length_le
      rw [Nat.min_eq_left hle] at this
      exact this
    cases e with
    | accept =>
      cases ha : s.active with
      | none =>
        have hw := h4 ha
        rw [hw, List.append_nil] at h2
        simp only [Tcp.step, ha]
        refine ⟨?_, ?_, ?_, by simp⟩
        · dsimp only
          rw [List.length_append, h2]
          simp [List.range_succ]
        · dsimp only
          rw [hw, List.append_nil, h2, List.range_succ]
        · dsimp only
          rw [h3, ha]; simp
      | some k =>
        simp only [Tcp.step, ha]
        refine ⟨h1, ?_, ?_, by simp⟩
        · dsimp only
          rw [← List.append_assoc, h2, List.range_succ]
        · dsimp only
          rw [← ha]; exact h3
    | finish =>
      cases ha : s.active with
      | none =>
        simp only [Tcp.step, ha]
        exact ⟨h1, h2, h3, h4⟩
      | some k =>
        cases hw : s.waiting with
        | nil =>
          simp only [Tcp.step, ha, hw]
          refine ⟨h1, by simpa [hw] using h2, ?_, by simp⟩
          simpa [ha] using h3
        | cons m ms =>
          simp only [Tcp.step, ha, hw]
          refine ⟨?_, ?_, ?_, by simp⟩
          · refine pref _ ?_
            exact ⟨ms, by simpa [hw] using h2⟩
          · simpa [hw] using h2
          · dsimp only
            rw [h3, ha]; simp

/-- **C112** fails: whatever happens, a connection to a stream listener is not forwarded before all earlier ones — to any
    stream listener — have ended. One connection that stays open holds up all others. -/
theorem C112_one_at_a_time_fails (es : List TcpEvent) (n m : Nat) (hn : n ∈ (Tcp.run es).started) (hm : m < n) :
    m ∈ (Tcp.run es).ended := by
  obtain ⟨h1, -, h3, -⟩ := tcp_inv es
  generalize Tcp.run es = s at *
  have hnl : n < s.started.length := by rw [h1] at hn; simpa using hn
  cases ha : s.active with
  | none =>
    rw [ha] at h3
    have e : s.started = s.ended := by simpa using h3
    rw [← e, h1]; simp; omega
  | some k =>
    rw [ha] at h3
    have e : s.started = s.ended ++ [k] := by simpa using h3
    have hl : s.started.length = s.ended.length + 1 := by rw [e]; simp
    have hr : List.range s.started.length = s.ended ++ [k] := h1.symm.trans e
    rw [hl, List.range_succ] at hr
    rw [← (List.append_inj' hr rfl).1]
    simp; omega

/-- **C112**, partial: connections are forwarded in the order in which they came, and the next one is, as soon as the one
    before has ended: at any time some connection is being forwarded, or all that came have ended. -/
theorem C112_order_partial (es : List TcpEvent) :
    (Tcp.run es).started = List.range (Tcp.run es).started.length ∧
    ((Tcp.run es).active = none → (Tcp.run es).ended = List.range (Tcp.run es).next) ∧
    (∀ n, (Tcp.run es).active = some n → (Tcp.run es).ended = List.range n) := by
  obtain ⟨h1, h2, h3, h4⟩ := tcp_inv es
  generalize Tcp.run es = s at *
  refine ⟨h1, ?_, ?_⟩
  · intro ha
    rw [h4 ha, List.append_nil] at h2
    rw [ha] at h3
    rw [← h2, h3]; simp
  · intro n ha
    rw [ha] at h3
    have e : s.started = s.ended ++ [n] := by simpa using h3
    have hl : s.started.length = s.ended.length + 1 := by rw [e]; simp
    have hr : List.range s.started.length = s.ended ++ [n] := h1.symm.trans e
    rw [hl, List.range_succ] at hr
    obtain ⟨e1, e2⟩ := List.append_inj' hr rfl
    simp only [List.cons.injEq, and_true] at e2
    rw [← e1, e2]

/-! ### C113 -/

/-- the certificates among the sections of a file, in order -/
inductive CertsOf : List PemItem → List Nat → Prop
  | nil : CertsOf [] []
  | cert {items cs} (c : Nat) : CertsOf items cs → CertsOf (.cert c :: items) (c :: cs)
  | rsa {items cs} (k : Nat) : CertsOf items cs → CertsOf (.rsaKey k :: items) cs
  | other {items cs} (k : Nat) : CertsOf items cs → CertsOf (.otherKey k :: items) cs

theorem certsOf_iff (items : List PemItem) (cs : List Nat) : CertsOf items cs ↔ cs = items.filterMap PemItem.asCert := by
  constructor
  · intro h
    induction h with
    | nil => rfl
    | cert c _ ih => simp [PemItem.asCert, ih]
    | rsa k _ ih => rw [ih]; rfl
    | other k _ ih => rw [ih]; rfl
  · rintro rfl
    induction items with
    | nil => exact .nil
    | cons x items ih =>
      cases x with
      | cert c => exact .cert c ih
      | rsaKey k => exact .rsa k ih
      | otherKey k => exact .other k ih

/-- this is the only key in the format PKCS#1 among the sections of a file -/
def OnlyKey (items : List PemItem) (k : Nat) : Prop :=
  ∃ a b, items = a ++ .rsaKey k :: b ∧ ∀ k', PemItem.rsaKey k' ∉ a ∧ PemItem.rsaKey k' ∉ b

theorem noKey_iff (items : List PemItem) : (∀ k, PemItem.rsaKey k ∉ items) ↔ items.filterMap PemItem.asRsa = [] := by
  rw [List.filterMap_eq_nil_iff]
  constructor
  · intro h x hx
    cases x with
    | rsaKey k => exact absurd hx (h k)
    | cert c => rfl
    | otherKey k => rfl
  · intro h k hk
    have := h _ hk
    cases this

theorem onlyKey_iff (items : List PemItem) (k : Nat) : OnlyKey items k ↔ items.filterMap PemItem.asRsa = [k] := by
  constructor
  · rintro ⟨a, b, rfl, h⟩
    rw [List.filterMap_append, (noKey_iff a).1 fun k => (h k).1]
    simp [PemItem.asRsa, (noKey_iff b).1 fun k => (h k).2]
  · intro h
    induction items with
    | nil => cases h
    | cons x items ih =>
      have skip : x.asRsa = none → (∀ j, x ≠ .rsaKey j) → OnlyKey (x :: items) k := by
        intro hx hn
        rw [List.filterMap_cons_none hx] at h
        obtain ⟨a, b, rfl, hab⟩ := ih h
        refine ⟨x :: a, b, rfl, fun j => ⟨?_, (hab j).2⟩⟩
        intro hj
        rcases List.mem_cons.1 hj with hj | hj
        · exact hn j hj.symm
        · exact (hab j).1 hj
      cases x with
      | rsaKey j =>
        have hj : PemItem.asRsa (.rsaKey j) = some j := rfl
        rw [List.filterMap_cons_some hj] at h
        injection h with h1 h2
        subst h1
        exact ⟨[], items, rfl, fun k => ⟨by simp, (noKey_iff items).2 h2 k⟩⟩
      | cert c => exact skip rfl (by simp)
      | otherKey c => exact skip rfl (by simp)

/-- the configured file gives these certificates; without a file, the built-in ones -/
def GivesCerts (r : Rustls) (f : Option (Option (List PemItem))) (cs : List Nat) : Prop :=
  (f = none ∧ cs = r.builtinCerts) ∨
  ∃ items, f = some (some items) ∧ CertsOf items cs

/-- the configured file has exactly this key, in the format PKCS#1; without a file, the built-in one -/
def GivesKey (r : Rustls) (f : Option (Option (List PemItem))) (k : Nat) : Prop :=
  (f = none ∧ k = r.builtinKey) ∨
  ∃ items, f = some (some items) ∧ OnlyKey items k

theorem loadCerts_iff (r : Rustls) (f) (cs : List Nat) : loadCerts r f = .ok cs ↔ GivesCerts r f cs := by
  unfold loadCerts GivesCerts
  simp only [certsOf_iff]
  rcases f with _ | _ | items
  · simp [eq_comm]
  · simp
  · constructor
    · intro h; injection h with h; exact .inr ⟨items, rfl, h.symm⟩
    · rintro (⟨h, _⟩ | ⟨_, h, h2⟩)
      · cases h
      · cases h; rw [h2]

theorem loadKeys_iff (r : Rustls) (f) (k : Nat) : loadKeys r f = .ok k ↔ GivesKey r f k := by
  unfold loadKeys GivesKey
  simp only [onlyKey_iff]
  rcases f with _ | _ | items
  · simp [eq_comm]
  · simp
  · dsimp only
    constructor
    · intro h
      split at h
      · rename_i k' hk
        injection h with h; subst h
        exact .inr ⟨items, rfl, hk⟩
      · cases h
    · rintro (⟨h, _⟩ | ⟨_, h, h2⟩)
      · cases h
      · cases h; rw [h2]

theorem loadCerts_not_panic (r : Rustls) (f) : loadCerts r f ≠ .panic := by
  unfold loadCerts; rcases f with _ | _ | items <;> simp

theorem loadKeys_not_panic (r : Rustls) (f) : loadKeys r f ≠ .panic := by
  unfold loadKeys
  rcases f with _ | _ | items
  · simp
  · simp
  · dsimp only; split <;> simp

/-- **C113** (exactly): the tunnel is accepted over TLS only if this is asked for, and then with the configured certificates
    and key, which fit together, and demanding a certificate of the client exactly if this is asked for. -/
theorem C113_accept_exact (r : Rustls) (c : TunnelTls) (e : TlsEnd) :
    acceptedOver r c = some (.tls e) ↔
      c.tc = true ∧ GivesCerts r c.cert e.certs ∧ GivesKey r c.key e.key ∧ r.single e.certs e.key = true ∧
      e.demands = (if c.twoWay then some e.certs else none) ∧
      (c.twoWay = true → (∀ x ∈ e.certs, r.root x = true) ∧ r.verifier e.certs = true) := by
  have h1 : acceptedOver r c = some (.tls e) ↔ tlsAccept r c = .ok e := by
    unfold acceptedOver orClear; cases tlsAccept r c <;> simp
  rw [h1, ← loadCerts_iff, ← loadKeys_iff]
  unfold tlsAccept
  cases htc : c.tc
  · simp
  cases hc : loadCerts r c.cert with
  | panic => simp
  | err x => simp
  | ok certs =>
    cases hk : loadKeys r c.key with
    | panic => simp
    | err x => simp
    | ok key =>
      obtain ⟨ec, ek, ed⟩ := e
      cases ht : c.twoWay
      · simp only [Bool.not_true, Bool.false_eq_true, if_false, true_and, Res.ok.injEq]
        constructor
        · intro h
          split at h
          · rename_i hs
            injection h with h
            injection h with h1 h2 h3
            subst h1 h2 h3
            exact ⟨rfl, rfl, hs, rfl, by simp⟩
          · cases h
        · rintro ⟨rfl, rfl, hs, rfl, _⟩
          rw [if_pos hs]
      · simp only [Bool.not_true, Bool.false_eq_true, if_false, if_true, true_and, Res.ok.injEq]
        constructor
        · intro h
          split at h
          · cases h
          · rename_i hr
            split at h
            · cases h
            · rename_i hv
              split at h
              · rename_i hs
                injection h with h
                injection h with h1 h2 h3
                subst h1 h2 h3
                exact ⟨rfl, rfl, hs, rfl, fun _ => ⟨by simpa using hr, by simpa using hv⟩⟩
              · cases h
        · rintro ⟨rfl, rfl, hs, rfl, h⟩
          obtain ⟨hr, hv⟩ := h trivial
          rw [if_neg (by simpa using hr), if_neg (by simpa using hv), if_pos hs]

/-- **C113** (exactly): a client connects over TLS only if this is asked for; it shows the configured certificates exactly if it is
    to prove its identity, and trusts those of the configured certificates that can serve as roots. -/
theorem C113_connect_exact (r : Rustls) (c : TunnelTls) (e : TlsClient) :
    connectedOver r c = some (.tls e) ↔
      c.ts = true ∧ ∃ certs, GivesCerts r c.cert certs ∧ e.roots = certs.filter r.root ∧
      (c.twoWay = false → e.shows = none) ∧
      (c.twoWay = true → ∃ key, GivesKey r c.key key ∧ r.single certs key = true ∧ e.shows = some (certs, key)) := by
  have h1 : connectedOver r c = some (.tls e) ↔ tlsRequest r c = .ok e := by
    unfold connectedOver orClear; cases tlsRequest r c <;> simp
  rw [h1]
  simp only [← loadCerts_iff, ← loadKeys_iff]
  unfold tlsRequest
  cases htc : c.ts
  · simp
  cases hc : loadCerts r c.cert with
  | panic => simp
  | err x => simp
  | ok certs =>
    obtain ⟨es, er⟩ := e
    cases ht : c.twoWay
    · simp only [Bool.not_true, Bool.false_eq_true, if_false, true_and, Res.ok.injEq, TlsClient.mk.injEq]
      constructor
      · rintro ⟨rfl, rfl⟩; exact ⟨certs, rfl, rfl, fun _ => rfl, by simp⟩
      · rintro ⟨_, rfl, rfl, h, _⟩; exact ⟨(h trivial).symm, rfl⟩
    · cases hk : loadKeys r c.key with
      | panic => simp
      | err x => simp
      | ok key =>
        simp only [Bool.not_true, Bool.false_eq_true, if_false, if_true, true_and, Res.ok.injEq]
        constructor
        · intro h
          split at h
          · rename_i hs
            injection h with h
            injection h with h1 h2
            subst h1 h2
            exact ⟨certs, rfl, rfl, by simp, fun _ => ⟨key, rfl, hs, rfl⟩⟩
          · cases h
        · rintro ⟨_, rfl, rfl, _, h⟩
          obtain ⟨_, rfl, hs, rfl⟩ := h trivial
          rw [if_pos hs]

/-- **C113**, partial: the tunnel is encrypted if this is asked for and certificates and key can be used. Missing: that the service
    does not start otherwise, see below. -/
theorem C113_encrypted_partial (r : Rustls) (c : TunnelTls) (certs : List Nat) (key : Nat)
    (h1 : GivesCerts r c.cert certs) (h2 : GivesKey r c.key key) (h3 : r.single certs key = true)
    (h4 : c.twoWay = true → (∀ x ∈ certs, r.root x = true) ∧ r.verifier certs = true) :
    (c.tc = true → ∃ e, acceptedOver r c = some (.tls e)) ∧ (c.ts = true → ∃ e, connectedOver r c = some (.tls e)) := by
  constructor
  · intro ht
    exact ⟨⟨certs, key, if c.twoWay then some certs else none⟩, (C113_accept_exact r c _).mpr ⟨ht, h1, h2, h3, rfl, h4⟩⟩
  · intro ht
    refine ⟨⟨if c.twoWay then some (certs, key) else none, certs.filter r.root⟩,
      (C113_connect_exact r c _).mpr ⟨ht, certs, h1, rfl, ?_, ?_⟩⟩
    · intro h; simp [h]
    · intro h; exact ⟨key, h2, h3, by simp [h]⟩

/-- **C113** fails: if the certificates cannot be read, the service starts and the tunnel runs in the clear on both sides, though TLS is
    asked for. -/
theorem C113_clear_fails (r : Rustls) (c : TunnelTls) (h : c.cert = some none) :
    acceptedOver r c = some .clear ∧ connectedOver r c = some .clear := by
  unfold acceptedOver connectedOver tlsAccept tlsRequest
  rw [h]
  cases c.tc <;> cases c.ts <;> simp [loadCerts, orClear]

/-- **C113** fails in the same way for every key file that has not exactly one key in the format PKCS#1 — for instance one with a
    key in the format PKCS#8 (`BEGIN PRIVATE KEY`), which is a usual one, or with a key on an elliptic curve: at the server, and
    at a client that is to prove its identity. -/
theorem C113_key_fails (r : Rustls) (c : TunnelTls) (items : List PemItem) (hk : c.key = some (some items))
    (h : ∀ k, PemItem.rsaKey k ∉ items) :
    acceptedOver r c = some .clear ∧ (c.twoWay = true → connectedOver r c = some .clear) := by
  have hl : loadKeys r c.key = .err .ioError := by
    rw [hk]
    have := (noKey_iff items).1 h
    simp only [loadKeys, this]
  constructor
  · unfold acceptedOver tlsAccept
    rw [hl]
    cases c.tc
    · rfl
    · cases hc : loadCerts r c.cert with
      | panic => exact absurd hc (loadCerts_not_panic _ _)
      | err e => rfl
      | ok cs => rfl
  · intro ht
    unfold connectedOver tlsRequest
    rw [hl, ht]
    cases c.ts
    · rfl
    · cases hc : loadCerts r c.cert with
      | panic => exact absurd hc (loadCerts_not_panic _ _)
      | err e => rfl
      | ok cs => rfl

/-- **C113** fails for certificates and keys that do not fit together: again in the clear. -/
theorem C113_misfit_fails (r : Rustls) (c : TunnelTls) (certs : List Nat) (key : Nat)
    (h1 : GivesCerts r c.cert certs) (h2 : GivesKey r c.key key) (h3 : r.single certs key = false) (h4 : c.twoWay = false) :
    acceptedOver r c = some .clear := by
  unfold acceptedOver tlsAccept
  rw [(loadCerts_iff r _ _).mpr h1, (loadKeys_iff r _ _).mpr h2]
  cases c.tc <;> simp [h3, h4, orClear]

/-- **C113**: with two-way authentication, a certificate that cannot serve as a root makes the start panic. -/
theorem C113_root_panics_fails (r : Rustls) (c : TunnelTls) (ht : c.tc = true) (h2 : c.twoWay = true) (certs : List Nat)
    (h1 : GivesCerts r c.cert certs) (key : Nat) (hk : GivesKey r c.key key) (x : Nat) (hx : x ∈ certs) (hr : r.root x = false) :
    acceptedOver r c = none := by
  unfold acceptedOver tlsAccept
  rw [(loadCerts_iff r _ _).mpr h1, (loadKeys_iff r _ _).mpr hk]
  have : certs.all r.root = false := by
    rw [List.all_eq_false]; exact ⟨x, hx, by simp [hr]⟩
  simp [ht, h2, this, orClear]

/-- **C113** for HTTPS visitors of the tunnel: there is never a listener in the clear, and with usable certificates and key the one
    asked for is there. -/
theorem C113_map_partial (r : Rustls) (opens : Bool) (cert key : Option (Option (List PemItem))) (e : TlsEnd) :
    mapHttps r true opens cert key = some (some e) ↔
      opens = true ∧ GivesCerts r cert e.certs ∧ GivesKey r key e.key ∧ r.single e.certs e.key = true ∧ e.demands = none := by
  rw [← loadCerts_iff, ← loadKeys_iff]
  unfold mapHttps mapAccept
  cases opens
  · simp
  cases hc : loadCerts r cert with
  | panic => simp
  | err x => simp
  | ok certs =>
    cases hk : loadKeys r key with
    | panic => simp
    | err x => simp
    | ok k =>
      obtain ⟨ec, ek, ed⟩ := e
      dsimp only
      simp only [if_true, true_and, Res.ok.injEq]
      cases hs : r.single certs k
      · simp only [Bool.false_eq_true, if_false, reduceCtorEq, false_iff]
        simp only [Option.some.injEq, reduceCtorEq, false_iff]
        rintro ⟨rfl, rfl, h, _⟩
        rw [hs] at h; cases h
      · simp only [if_true, Option.some.injEq, TlsEnd.mk.injEq]
        constructor
        · rintro ⟨rfl, rfl, rfl⟩; exact ⟨rfl, rfl, hs, rfl⟩
        · rintro ⟨rfl, rfl, _, rfl⟩; exact ⟨rfl, rfl, rfl⟩

/-- **C113** fails for HTTPS visitors of the tunnel: with certificates or a key that cannot be read the service starts without the
    listener. -/
theorem C113_no_listener_fails (r : Rustls) (cert key : Option (Option (List PemItem))) (h : cert = some none ∨ key = some none) :
    mapHttps r true true cert key = some none := by
  unfold mapHttps mapAccept
  rcases h with rfl | rfl
  · simp [loadCerts]
  · cases hc : loadCerts r cert with
    | panic => exact absurd hc (loadCerts_not_panic _ _)
    | err e => simp
    | ok cs => simp [loadKeys]

/-! ### The hypotheses are met -/

section Examples

def local8080 : SockAddr := ⟨.v4 0x7F000001#32, 8080⟩
def public8080 : SockAddr := ⟨.v4 0xCB007101#32, 8080⟩
def public443 : SockAddr := ⟨.v4 0xCB007101#32, 443⟩

/-- an internal block, and a public one with TLS -/
def inner : Block := ⟨[local8080], [], .absent, none, ⟨"admin".toList, []⟩⟩
def outer : Block := ⟨[public8080], [public443], .good, none, ⟨"www".toList, []⟩⟩

example : bindHttp (fun _ _ => true) [inner, outer] [] = some [(local8080, false), (public8080, false), (public443, true)] := by
  decide +kernel

/-- the internal block is served to a visitor of the public address -/
example : serving [inner, outer] (public8080, false) none "admin".toList = some inner.server :=
  C108_other_address_fails [] [outer] inner (by decide) (by simp) local8080 (by decide) public8080 (by decide) none

/-- an address asked for with and without TLS -/
example : bindHttp (fun _ _ => true) [⟨[public443], [], .absent, none, ⟨"a".toList, []⟩⟩, outer] []
    = some [(public443, false), (public8080, false)] := by decide +kernel

/-- `C110_single`, `C110_shown` -/
example : shown [outer] none = some outer ∧ outer.cert = .good := by decide +kernel

example : shown [inner, outer] (some "www".toList) = some outer := by decide +kernel

example : serving [inner, outer] (public443, true) (some "www".toList) "other".toList = some outer.server := by decide +kernel

/-- the block with domain `www.x` is named `www`; the last one for the port serves its visitors -/
example : serving [{ outer with domain := some "www.x".toList }, { inner with tls := [public443] }] (public443, true)
    (some "www.x".toList) "www.x".toList = some inner.server :=
  C110_domain_fails _ _ (by decide) public443 [{ outer with domain := some "www.x".toList }] [] { inner with tls := [public443] }
    rfl ⟨public443, by decide, rfl⟩ (by simp) (by decide)

/-- ":8869" with two network cards, and UDP on the same port: one listener -/
example : streamBind (fun _ _ => true) [⟨[local8080, public8080], false, "a".toList⟩, ⟨[local8080], true, "b".toList⟩] []
    = some [(local8080, ⟨[local8080, public8080], false, "a".toList⟩)] := by decide +kernel

/-- the second connection waits for the first to end -/
example : (Tcp.run [.accept, .accept, .accept, .finish]).started = [0, 1] ∧
    (Tcp.run [.accept, .accept, .accept, .finish]).waiting = [2] := by decide +kernel

/-- everything fits together -/
def exRustls : Rustls := ⟨[1], 1, fun _ => true, fun _ => true, fun _ _ => true⟩

/-- TLS is asked for, with a certificate and a key in the format PKCS#8 -/
example : acceptedOver exRustls ⟨true, true, false, some (some [.cert 2]), some (some [.otherKey 2])⟩ = some .clear :=
  (C113_key_fails _ _ [.otherKey 2] rfl (by simp)).1

example : acceptedOver exRustls ⟨true, true, true, some (some [.cert 2]), some (some [.rsaKey 2])⟩ = some (.tls ⟨[2], 2, some [2]⟩) :=
  (C113_accept_exact _ _ _).mpr ⟨rfl, .inr ⟨_, rfl, .cert 2 .nil⟩, .inr ⟨_, rfl, [], [], rfl, by simp⟩, rfl, rfl,
    fun _ => ⟨fun _ _ => rfl, rfl⟩⟩

example : acceptedOver { exRustls with root := fun c => c != 2 } ⟨true, true, true, some (some [.cert 2]), none⟩ = none :=
  C113_root_panics_fails _ _ rfl rfl [2] (.inr ⟨_, rfl, .cert 2 .nil⟩) 1 (.inl ⟨rfl, rfl⟩) 2 (by simp) rfl

end Examples

end Wm.Listen
