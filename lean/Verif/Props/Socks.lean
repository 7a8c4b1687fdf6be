import Verif.Proofs.Socks
/-!
Properties C51, C52, C77–C80: SOCKS5 (src/proxy/socks5.rs).
-/
namespace Wm.Socks
open Wm

/-! ### Addresses -/

/-- The bytes `t` of a request name the address `a`: the address itself (type 1 or 4), or a host name (type 3), its
    length in one byte, and a port, that resolve to `a` first. -/
def Target (net : Net) (t : Bytes) (a : SockAddr) : Prop :=
  t = encodeAddr a ∨
  ∃ (name : Bytes) (port : Nat) (more : List SockAddr), name.length < 256 ∧ port < 65536 ∧
    t = 3 :: UInt8.ofNat name.length :: (name ++ putU16 port) ∧
    net.resolve (lossy name ++ ':' :: showNat port) = some (a :: more)

theorem readAddr_sound {net : Net} {s s' : Src} {a : SockAddr} (h : readAddr net s = .ok (a, s')) :
    ∃ t, total s = t ++ total s' ∧ Target net t a := by
  unfold readAddr at h
  obtain ⟨⟨atyp, s1⟩, e1, h⟩ := Res.bind_eq_ok h
  obtain ⟨b0, hb0, ht0⟩ := takeU8_total e1
  simp only at h
  split at h
  · rename_i h1
    obtain ⟨s2, e2, h⟩ := Res.bind_eq_ok h
    have ht1 := (need_sound e2).1
    obtain ⟨⟨v1, s3⟩, e3, h⟩ := Res.bind_eq_ok h
    obtain ⟨x1, hx1, t1⟩ := takeU8_total e3
    obtain ⟨⟨v2, s4⟩, e4, h⟩ := Res.bind_eq_ok h
    obtain ⟨x2, hx2, t2⟩ := takeU8_total e4
    obtain ⟨⟨v3, s5⟩, e5, h⟩ := Res.bind_eq_ok h
    obtain ⟨x3, hx3, t3⟩ := takeU8_total e5
    obtain ⟨⟨v4, s6⟩, e6, h⟩ := Res.bind_eq_ok h
    obtain ⟨x4, hx4, t4⟩ := takeU8_total e6
    obtain ⟨⟨v5, s7⟩, e7, h⟩ := Res.bind_eq_ok h
    obtain ⟨x5, x6, hx5, t5⟩ := takeU16_total e7
    simp only [Res.pure_eq, Res.ok.injEq, Prod.mk.injEq] at h
    obtain ⟨h2, h3⟩ := h
    subst h3 h2
    refine ⟨[b0, x1, x2, x3, x4, x5, x6], ?_, Or.inl ?_⟩
    · rw [ht0, ← ht1, t1, t2, t3, t4, t5]; rfl
    · have hb : b0 = 1 := UInt8.toNat_inj.1 (by rw [← hb0, h1]; rfl)
      have l1 := x1.toNat_lt; have l2 := x2.toNat_lt; have l3 := x3.toNat_lt; have l4 := x4.toNat_lt
      have l5 := x5.toNat_lt; have l6 := x6.toNat_lt
      subst hx1 hx2 hx3 hx4 hx5
      simp only [encodeAddr, BitVec.toNat_ofNat]
      rw [Nat.mod_eq_of_lt (by omega), Nat.mod_eq_of_lt (by omega), putU32_quad, putU16_pair, hb]
      rfl
  · split at h
    · rename_i h1
      obtain ⟨s2, e2, h⟩ := Res.bind_eq_ok h
      have ht1 := (need_sound e2).1
      obtain ⟨⟨v1, s3⟩, e3, h⟩ := Res.bind_eq_ok h
      obtain ⟨x1, hx1, t1⟩ := takeU8_total e3
      obtain ⟨s4, e4, h⟩ := Res.bind_eq_ok h
      have ht2 := (need_sound e4).1
      obtain ⟨s5, e5, h⟩ := Res.bind_eq_ok h
      obtain ⟨hl, -, t2⟩ := advance_total e5
      obtain ⟨⟨v2, s6⟩, e6, h⟩ := Res.bind_eq_ok h
      obtain ⟨x2, x3, hx2, t3⟩ := takeU16_total e6
      simp only at h hl t2
      generalize hname : s4.buf.take v1 = name at h t2
      have hlen : name.length = v1 := by rw [← hname, List.length_take]; omega
      cases hres : net.resolve (nameText name v2) with
      | none => rw [hres] at h; cases h
      | some l =>
        rw [hres] at h
        cases l with
        | nil => cases h
        | cons a' more =>
          simp only [Res.pure_eq, Res.ok.injEq, Prod.mk.injEq] at h
          obtain ⟨h2, h3⟩ := h
          subst h3 h2
          have l1 := x1.toNat_lt; have l2 := x2.toNat_lt; have l3 := x3.toNat_lt
          refine ⟨3 :: UInt8.ofNat name.length :: (name ++ putU16 v2), ?_, Or.inr ⟨name, v2, more, by omega, by omega, rfl, hres⟩⟩
          have hb : b0 = 3 := UInt8.toNat_inj.1 (by rw [← hb0, h1]; rfl)
          have hn : UInt8.ofNat name.length = x1 := by rw [hlen, hx1]; simp
          rw [ht0, ← ht1, t1, ← ht2, t2, t3, hn, hb, hx2, putU16_pair]; simp
    · split at h
      · rename_i h1
        obtain ⟨s2, e2, h⟩ := Res.bind_eq_ok h
        have ht1 := (need_sound e2).1
        obtain ⟨⟨v7, s3⟩, e3, h⟩ := Res.bind_eq_ok h
        obtain ⟨a7, c7, hx7, t7⟩ := takeU16_total e3
        obtain ⟨⟨v6, s4⟩, e4, h⟩ := Res.bind_eq_ok h
        obtain ⟨a6, c6, hx6, t6⟩ := takeU16_total e4
        obtain ⟨⟨v5, s5⟩, e5, h⟩ := Res.bind_eq_ok h
        obtain ⟨a5, c5, hx5, t5⟩ := takeU16_total e5
        obtain ⟨⟨v4, s6⟩, e6, h⟩ := Res.bind_eq_ok h
        obtain ⟨a4, c4, hx4, t4⟩ := takeU16_total e6
        obtain ⟨⟨v3, s7⟩, e7, h⟩ := Res.bind_eq_ok h
        obtain ⟨a3, c3, hx3, t3⟩ := takeU16_total e7
        obtain ⟨⟨v2, s8⟩, e8, h⟩ := Res.bind_eq_ok h
        obtain ⟨a2, c2, hx2, t2⟩ := takeU16_total e8
        obtain ⟨⟨v1, s9⟩, e9, h⟩ := Res.bind_eq_ok h
        obtain ⟨a1, c1, hx1, t1⟩ := takeU16_total e9
        obtain ⟨⟨v0, s10⟩, e10, h⟩ := Res.bind_eq_ok h
        obtain ⟨a0, c0, hx0, t0⟩ := takeU16_total e10
        obtain ⟨⟨vp, s11⟩, e11, h⟩ := Res.bind_eq_ok h
        obtain ⟨ap, cp, hxp, tp⟩ := takeU16_total e11
        simp only [Res.pure_eq, Res.ok.injEq, Prod.mk.injEq] at h
        obtain ⟨h2, h3⟩ := h
        subst h3 h2
        refine ⟨[b0, a7, c7, a6, c6, a5, c5, a4, c4, a3, c3, a2, c2, a1, c1, a0, c0, ap, cp], ?_, Or.inl ?_⟩
        · rw [ht0, ← ht1, t7, t6, t5, t4, t3, t2, t1, t0, tp]; rfl
        · have hb : b0 = 4 := UInt8.toNat_inj.1 (by rw [← hb0, h1]; rfl)
          have bound : ∀ a b : UInt8, a.toNat * 256 + b.toNat < 65536 := fun a b => by
            have := a.toNat_lt; have := b.toNat_lt; omega
          subst hx7 hx6 hx5 hx4 hx3 hx2 hx1 hx0 hxp
          obtain ⟨g7, g6, g5, g4, g3, g2, g1, g0⟩ := seg_ofSegs _ _ _ _ _ _ _ _ (bound a7 c7) (bound a6 c6)
            (bound a5 c5) (bound a4 c4) (bound a3 c3) (bound a2 c2) (bound a1 c1) (bound a0 c0)
          simp only [encodeAddr, BitVec.toNat_ofNat]
          rw [g7, g6, g5, g4, g3, g2, g1, g0, Nat.mod_eq_of_lt (bound ap cp), hb]
          simp only [putU16_pair]
          rfl
      · cases h

theorem readAddr_complete {early : Bytes} {later : List Bytes} {net : Net} {t r : Bytes} {a : SockAddr}
    (hT : Target net t a) {s : Src} (hb : s.buf ≠ []) (ht : At early later (t ++ r) s) :
    ∃ s', readAddr net s = .ok (a, s') ∧ At early later r s' := by
  obtain ⟨buf, ps⟩ := s
  match hbuf : buf with
  | [] => exact absurd rfl hb
  | b0 :: buf' =>
    rcases hT with hT | ⟨name, port, more, hn, hp, hT, hres⟩
    · obtain ⟨ip, port⟩ := a
      have hport := port.isLt
      cases ip with
      | v4 ip =>
        have hip := ip.isLt
        subst hT
        have h0 : b0 = 1 := by
          have := at_total ht
          simp only [encodeAddr, putU8, total, List.cons_append, List.cons.injEq] at this
          exact this.1
        subst h0
        obtain ⟨b', ps', -, e, hr⟩ := need_split (s := ⟨buf', ps⟩) (n := 6) (r := r)
          (x := [byteAt ip.toNat 3, byteAt ip.toNat 2, byteAt ip.toNat 1, byteAt ip.toNat 0, byteAt port.toNat 1, byteAt port.toNat 0])
          (at_drop (y := [1]) ht) rfl
        refine ⟨⟨b', ps'⟩, ?_, hr⟩
        simp only [readAddr, takeU8_cons, Res.bind_ok]
        rw [if_pos (by decide), e]
        simp only [Res.bind_ok, List.cons_append, List.nil_append, takeU8_cons, takeU16_cons, Res.pure_eq, Res.ok.injEq,
          Prod.mk.injEq, and_true, SockAddr.mk.injEq, IpAddr.v4.injEq, byteAt_toNat]
        refine ⟨BitVec.eq_of_toNat_eq ?_, BitVec.eq_of_toNat_eq ?_⟩ <;> rw [BitVec.toNat_ofNat] <;> omega
      | v6 ip =>
        subst hT
        have h0 : b0 = 4 := by
          have := at_total ht
          simp only [encodeAddr, putU8, total, List.cons_append, List.cons.injEq] at this
          exact this.1
        subst h0
        obtain ⟨b', ps', -, e, hr⟩ := need_split (s := ⟨buf', ps⟩) (n := 18) (r := r)
          (x := putU16 (seg ip 7) ++ putU16 (seg ip 6) ++ putU16 (seg ip 5) ++ putU16 (seg ip 4)
            ++ putU16 (seg ip 3) ++ putU16 (seg ip 2) ++ putU16 (seg ip 1) ++ putU16 (seg ip 0) ++ putU16 port.toNat)
          (at_drop (y := [4]) ht) rfl
        refine ⟨⟨b', ps'⟩, ?_, hr⟩
        simp only [readAddr, takeU8_cons, Res.bind_ok]
        rw [if_neg (by decide), if_neg (by decide), if_pos (by decide), e]
        simp only [Res.bind_ok, putU16, List.cons_append, List.nil_append, takeU16_cons, Res.pure_eq, Res.ok.injEq,
          Prod.mk.injEq, and_true, SockAddr.mk.injEq, IpAddr.v6.injEq, byteAt_toNat]
        have hs : ∀ k, seg ip k / 256 ^ 1 % 256 * 256 + seg ip k / 256 ^ 0 % 256 = seg ip k := fun k => by
          have := seg_lt ip k; omega
        refine ⟨?_, BitVec.eq_of_toNat_eq ?_⟩
        · simp only [hs]; exact ofSegs_seg ip
        · rw [BitVec.toNat_ofNat]; omega
    · subst hT
      have h0 : b0 = 3 := by
        have := at_total ht
        simp only [total, List.cons_append, List.cons.injEq] at this
        exact this.1
      subst h0
      obtain ⟨b1, ps1, -, e1, hr1⟩ := need_split (s := ⟨buf', ps⟩) (n := 1) (x := [UInt8.ofNat name.length])
        (r := (name ++ putU16 port) ++ r) (at_drop (y := [3]) ht) rfl
      obtain ⟨b2, ps2, -, e2, hr2⟩ := need_split (s := ⟨b1, ps1⟩) (n := name.length + 2) (x := name ++ putU16 port)
        (r := r) hr1 (by simp)
      refine ⟨⟨b2, ps2⟩, ?_, hr2⟩
      have hnn : (UInt8.ofNat name.length).toNat = name.length := by simp; omega
      simp only [readAddr, takeU8_cons, Res.bind_ok]
      rw [if_neg (by decide), if_pos (by decide), e1]
      simp only [Res.bind_ok, List.cons_append, List.nil_append, takeU8_cons, hnn]
      rw [e2]
      have hadv : advance name.length ⟨name ++ putU16 port ++ b2, ps2⟩ = .ok ⟨putU16 port ++ b2, ps2⟩ := by
        unfold advance
        rw [if_pos (by simp)]; simp
      have htk : (name ++ putU16 port ++ b2).take name.length = name := by simp
      simp only [Res.bind_ok, hadv, htk]
      have h16 : takeU16 ⟨putU16 port ++ b2, ps2⟩ = .ok (port, ⟨b2, ps2⟩) := by
        unfold takeU16; rw [getU16_put]; simp only [Res.bind_ok, Res.pure_eq]
        rw [Nat.mod_eq_of_lt hp]
      rw [h16]
      simp only [Res.bind_ok, nameText]
      rw [hres]; rfl

/-- **C51** The encoded form of every address is read back as that address, leaving exactly what follows, however the
    bytes are cut into pieces (the first byte has been received). -/
theorem C51_address_roundtrip (net : Net) (a : SockAddr) (s : Src) (ho : Open s) (hb : s.buf ≠ []) (rest : Bytes)
    (ht : total s = encodeAddr a ++ rest) :
    ∃ s', readAddr net s = .ok (a, s') ∧ total s' = rest := by
  obtain ⟨early, later, hat, hr⟩ := at_of_total ho ht
  obtain ⟨s', h1, h2⟩ := readAddr_complete (r := []) (Or.inl rfl) hb (by simpa using hat)
  rw [at_nil h2] at h1
  exact ⟨_, h1, hr⟩

/-- **C51** What is read as an address is its encoded form or a host name that resolves to it. -/
theorem C51_address_only (net : Net) (a : SockAddr) (s s' : Src) (h : readAddr net s = .ok (a, s')) :
    ∃ t, total s = t ++ total s' ∧ Target net t a := readAddr_sound h

example : Open ⟨[1, 10], [[0, 0, 1], [0, 80, 71], [69]]⟩ ∧
    total ⟨[1, 10], [[0, 0, 1], [0, 80, 71], [69]]⟩ = encodeAddr ⟨.v4 0x0A000001, 80⟩ ++ [71, 69] := by
  refine ⟨?_, by decide⟩
  intro p hp; simp at hp; rcases hp with h | h | h <;> subst h <;> decide
example : encodeAddr ⟨.v6 1, 443⟩ = [4, 0, 0, 0, 0, 0, 0, 0, 0, 0, 0, 0, 0, 0, 0, 0, 1, 1, 187] := by decide

/-! ### Credentials -/

theorem head_sound {c : Cfg} {s s' : Src} {v : Nat} (h : head c s = .ok (v, s')) :
    ∃ (n : UInt8) (m : Bytes), total s = 5 :: n :: (m ++ total s') ∧ m.length = n.toNat ∧
      v = (if c.isUserPassword then (if (2 : UInt8) ∈ m ++ s'.buf then 2 else 0xFF) else 0) := by
  unfold head at h
  simp only at h
  have ht := readLen_total 2 s.buf s.pending
  generalize (readLen 2 s.buf s.pending).1 = s1 at h ht
  obtain ⟨⟨v1, s2⟩, e2, h⟩ := Res.bind_eq_ok h
  obtain ⟨b1, hb1, t1⟩ := takeU8_total e2
  simp only at h
  split at h
  · cases h
  · rename_i h5
    obtain ⟨⟨len, s3⟩, e3, h⟩ := Res.bind_eq_ok h
    obtain ⟨b2, hb2, t2⟩ := takeU8_total e3
    simp only at h
    have ht4 := readLen_total len s3.buf s3.pending
    generalize (readLen len s3.buf s3.pending).1 = s4 at h ht4
    obtain ⟨s5, e5, h⟩ := Res.bind_eq_ok h
    obtain ⟨hl, hs5, t5⟩ := advance_total e5
    simp only [Res.pure_eq, Res.ok.injEq, Prod.mk.injEq] at h
    obtain ⟨hv, hs⟩ := h
    subst hs
    refine ⟨b2, s4.buf.take len, ?_, ?_, ?_⟩
    · have hb : b1 = 5 := UInt8.toNat_inj.1 (by rw [← hb1]; simpa using h5)
      rw [show total s = total s1 from ht.symm, t1, t2, show total s3 = total s4 from ht4.symm, t5, hb]
    · rw [List.length_take, ← hb2]; omega
    · rw [← hv, hs5]; simp only [List.take_append_drop]

theorem cred_sound {w : Bytes} {n : Nat} {s s' : Src} (h : cred (some w) n s = some s') (hn : n ≤ s.buf.length) :
    w.length = n ∧ w ≠ [] ∧ total s = w ++ total s' := by
  unfold cred at h
  simp only at h
  split at h
  · cases h
  · rename_i hne
    rw [not_or, not_not] at hne
    obtain ⟨h0, hw⟩ := hne
    injection h with h; subst h
    have hlen : w.length = n := by rw [hw, List.length_take]; omega
    refine ⟨hlen, ?_, ?_⟩
    · intro hnil; rw [hnil] at hlen; exact h0 hlen.symm
    · simp only [total]
      rw [← List.append_assoc]
      conv_rhs => rw [hw, List.take_append_drop]

theorem verify_sound {c : Cfg} {u p : Bytes} (hu : c.username = some u) (hp : c.password = some p) {s s' : Src}
    (h : verify c s = .ok (true, s')) :
    u.length < 256 ∧ p.length < 256 ∧ u ≠ [] ∧ p ≠ [] ∧
      total s = 1 :: UInt8.ofNat u.length :: (u ++ UInt8.ofNat p.length :: (p ++ total s')) := by
  unfold verify at h
  obtain ⟨s1, e1, h⟩ := Res.bind_eq_ok h
  have t1 := (need_sound e1).1
  obtain ⟨⟨v, s2⟩, e2, h⟩ := Res.bind_eq_ok h
  obtain ⟨b, hb, t2⟩ := takeU8_total e2
  simp only at h
  split at h
  · cases h
  · rename_i h1
    obtain ⟨⟨ul, s3⟩, e3, h⟩ := Res.bind_eq_ok h
    obtain ⟨x, hx, t3⟩ := takeU8_total e3
    obtain ⟨s4, e4, h⟩ := Res.bind_eq_ok h
    obtain ⟨t4, l4⟩ := need_sound e4
    rw [hu, hp] at h
    split at h
    · cases h
    · rename_i s5 hc
      obtain ⟨hul, hune, t5⟩ := cred_sound hc l4
      obtain ⟨s6, e6, h⟩ := Res.bind_eq_ok h
      have t6 := (need_sound e6).1
      obtain ⟨⟨pl, s7⟩, e7, h⟩ := Res.bind_eq_ok h
      obtain ⟨y, hy, t7⟩ := takeU8_total e7
      obtain ⟨s8, e8, h⟩ := Res.bind_eq_ok h
      obtain ⟨t8, l8⟩ := need_sound e8
      simp only at h
      split at h
      · cases h
      · rename_i s9 hc2
        obtain ⟨hpl, hpne, t9⟩ := cred_sound hc2 l8
        simp only [Res.pure_eq, Res.ok.injEq, Prod.mk.injEq, true_and] at h
        subst h
        have lx := x.toNat_lt; have ly := y.toNat_lt
        simp only at hul hpl
        refine ⟨by omega, by omega, hune, hpne, ?_⟩
        have hb' : b = 1 := UInt8.toNat_inj.1 (by rw [← hb]; simpa using h1)
        have hxx : UInt8.ofNat u.length = x := by rw [hul, hx]; simp
        have hyy : UInt8.ofNat p.length = y := by rw [hpl, hy]; simp
        rw [← t1, t2, t3, ← t4, t5, ← t6, t7, ← t8, t9, hb', hxx, hyy]

theorem readRequest_sound {net : Net} {s s' : Src} {cmd : Nat} {a : SockAddr}
    (h : readRequest net s = .ok ((cmd, a), s')) :
    ∃ (k : UInt8) (t : Bytes), k.toNat = cmd ∧ total s = 5 :: k :: 0 :: (t ++ total s') ∧ Target net t a := by
  unfold readRequest at h
  obtain ⟨s1, e1, h⟩ := Res.bind_eq_ok h
  have t1 := (need_sound e1).1
  obtain ⟨⟨v, s2⟩, e2, h⟩ := Res.bind_eq_ok h
  obtain ⟨b, hb, t2⟩ := takeU8_total e2
  simp only at h
  split at h
  · cases h
  · rename_i h5
    obtain ⟨⟨k, s3⟩, e3, h⟩ := Res.bind_eq_ok h
    obtain ⟨x, hx, t3⟩ := takeU8_total e3
    obtain ⟨⟨rsv, s4⟩, e4, h⟩ := Res.bind_eq_ok h
    obtain ⟨y, hy, t4⟩ := takeU8_total e4
    simp only at h
    split at h
    · cases h
    · rename_i h0
      obtain ⟨⟨a', s5⟩, e5, h⟩ := Res.bind_eq_ok h
      obtain ⟨t, t5, hT⟩ := readAddr_sound e5
      simp only [Res.pure_eq, Res.ok.injEq, Prod.mk.injEq] at h
      obtain ⟨⟨h1, h2⟩, h3⟩ := h
      subst h1 h2 h3
      have hb' : b = 5 := UInt8.toNat_inj.1 (by rw [← hb]; simpa using h5)
      have hy' : y = 0 := UInt8.toNat_inj.1 (by rw [← hy]; simpa using h0)
      exact ⟨x, t, hx.symm, by rw [← t1, t2, t3, t4, t5, hb', hy'], hT⟩

theorem target_ne_nil {net : Net} {t : Bytes} {a : SockAddr} (hT : Target net t a) : ∃ t0 t', t = t0 :: t' := by
  rcases hT with h | ⟨name, port, more, -, -, h, -⟩
  · obtain ⟨ip, port⟩ := a; cases ip <;> exact ⟨_, _, h⟩
  · exact ⟨_, _, h⟩

theorem readRequest_complete {early : Bytes} {later : List Bytes} {net : Net} {t : Bytes} {a : SockAddr}
    (hT : Target net t a) (k : UInt8) {s : Src} (ht : At early later ([5, k, 0] ++ t) s) :
    readRequest net s = .ok ((k.toNat, a), ⟨early, later⟩) := by
  obtain ⟨t0, t', htt⟩ := target_ne_nil hT
  obtain ⟨b, ps, -, e, hr⟩ := need_split (s := s) (n := 4) (x := [5, k, 0, t0]) (r := t')
    (by rw [htt] at ht; simpa using ht) rfl
  have hr' : At early later (t ++ []) ⟨t0 :: b, ps⟩ := by
    obtain ⟨front, h1, h2, h3, h4⟩ := hr
    refine ⟨front, h1, h2, ?_, h4⟩
    simp only at h3
    rw [htt]; simp [h3]
  obtain ⟨s', e', h1⟩ := readAddr_complete hT (s := ⟨t0 :: b, ps⟩) (by simp) hr'
  rw [at_nil h1] at e'
  unfold readRequest
  rw [e]
  simp only [Res.bind_ok, List.cons_append, List.nil_append, takeU8_cons]
  rw [if_neg (by decide), if_neg (by decide), e']; rfl

/-- The client gained access: a connection was attempted on its behalf, or UDP relaying was set up. -/
def Admitted (o : Out) : Prop := o.connects ≠ [] ∨ o.fin = .udp

theorem serve_admitted {c : Cfg} {net : Net} {w : Bytes} {s : Src} (h : Admitted (serve c net w s)) :
    ∃ (k : UInt8) (t : Bytes) (a : SockAddr) (rest : Bytes), total s = 5 :: k :: 0 :: (t ++ rest) ∧ Target net t a ∧
      ((k = 1 ∧ (serve c net w s).connects = [a]) ∨ (k = 3 ∧ (serve c net w s).connects = [])) := by
  unfold serve at h ⊢
  cases hr : readRequest net s with
  | err e => rw [hr] at h; simp [Admitted] at h
  | panic => rw [hr] at h; simp [Admitted] at h
  | ok x =>
    obtain ⟨⟨cmd, a⟩, s'⟩ := x
    obtain ⟨k, t, hk, ht, hT⟩ := readRequest_sound hr
    rw [hr] at h
    simp only at h ⊢
    refine ⟨k, t, a, total s', ht, hT, ?_⟩
    by_cases h1 : cmd = 1
    · left
      refine ⟨UInt8.toNat_inj.1 (by rw [hk, h1]; rfl), ?_⟩
      simp only [h1, if_true]; split <;> rfl
    · rw [if_neg h1] at h ⊢
      by_cases h2 : cmd = 2
      · rw [if_pos h2] at h; simp [Admitted] at h
      · rw [if_neg h2] at h ⊢
        by_cases h3 : cmd = 3
        · right
          refine ⟨UInt8.toNat_inj.1 (by rw [hk, h3]; rfl), ?_⟩
          simp only [h3, if_true]; split <;> rfl
        · rw [if_neg h3] at h; simp [Admitted] at h

/-- **C52** With a username `u` and password `p` configured, a client is admitted only if it sent a method list, exactly
    the credentials, and then a request, which is for the address it is connected to. -/
theorem C52_credentials_needed_partial (c : Cfg) (net : Net) (u p : Bytes) (hu : c.username = some u)
    (hp : c.password = some p) (s : Src) (h : Admitted (process c net s)) :
    ∃ (n : UInt8) (methods : Bytes) (k : UInt8) (t : Bytes) (a : SockAddr) (rest : Bytes),
      methods.length = n.toNat ∧ u.length < 256 ∧ p.length < 256 ∧
      total s = [5, n] ++ methods ++ ([1, UInt8.ofNat u.length] ++ u ++ [UInt8.ofNat p.length] ++ p)
        ++ ([5, k, 0] ++ t ++ rest) ∧
      Target net t a ∧
      ((k = 1 ∧ (process c net s).connects = [a]) ∨ (k = 3 ∧ (process c net s).connects = [])) := by
  have hup : c.isUserPassword = true := by simp [Cfg.isUserPassword, hu, hp]
  unfold process at h ⊢
  cases hh : head c s with
  | err e => rw [hh] at h; cases e <;> simp [Admitted] at h
  | panic => rw [hh] at h; simp [Admitted] at h
  | ok x =>
    obtain ⟨v, s1⟩ := x
    obtain ⟨n, m, ht, hm, hv⟩ := head_sound hh
    rw [hh] at h
    simp only at h ⊢
    rw [hup] at hv
    by_cases hff : v = 0xFF
    · rw [if_pos hff] at h; simp [Admitted] at h
    · rw [if_neg hff] at h ⊢
      have h2 : v = 2 := by
        simp only [if_true] at hv
        split at hv
        · exact hv
        · exact absurd hv hff
      rw [if_pos h2] at h ⊢
      cases hvv : verify c s1 with
      | err e => rw [hvv] at h; simp [Admitted] at h
      | panic => rw [hvv] at h; simp [Admitted] at h
      | ok y =>
        obtain ⟨b, s2⟩ := y
        rw [hvv] at h
        cases b with
        | false => simp [Admitted] at h
        | true =>
          simp only at h ⊢
          obtain ⟨lu, lp, -, -, t2⟩ := verify_sound hu hp hvv
          obtain ⟨k, t, a, rest, t3, hT, hc⟩ := serve_admitted h
          refine ⟨n, m, k, t, a, rest, hm, lu, lp, ?_, hT, hc⟩
          rw [ht, t2, t3]; simp

theorem cred_complete {w b : Bytes} (hw : w ≠ []) (ps : List Bytes) :
    cred (some w) w.length ⟨w ++ b, ps⟩ = some ⟨b, ps⟩ := by
  unfold cred
  have : w.length ≠ 0 := fun h => hw (List.length_eq_zero_iff.1 h)
  simp [this]

theorem verify_complete {early : Bytes} {later : List Bytes} {c : Cfg} {u p : Bytes} (hu : c.username = some u)
    (hp : c.password = some p) (lu : u.length < 256) (lp : p.length < 256) (hun : u ≠ []) (hpn : p ≠ []) {s : Src}
    {r : Bytes}
    (ht : At early later (([1, UInt8.ofNat u.length] ++ u ++ [UInt8.ofNat p.length] ++ p) ++ r) s) :
    ∃ s', verify c s = .ok (true, s') ∧ At early later r s' := by
  have hlu : (UInt8.ofNat u.length).toNat = u.length := by simp; omega
  have hlp : (UInt8.ofNat p.length).toNat = p.length := by simp; omega
  obtain ⟨b1, q1, -, e1, r1⟩ := need_split (s := s) (n := 2) (x := [1, UInt8.ofNat u.length])
    (r := u ++ (UInt8.ofNat p.length :: (p ++ r))) (by simpa using ht) rfl
  obtain ⟨b2, q2, -, e2, r2⟩ := need_split (s := ⟨b1, q1⟩) (n := u.length) (x := u)
    (r := UInt8.ofNat p.length :: (p ++ r)) r1 rfl
  obtain ⟨b3, q3, -, e3, r3⟩ := need_split (s := ⟨b2, q2⟩) (n := 1) (x := [UInt8.ofNat p.length])
    (r := p ++ r) r2 rfl
  obtain ⟨b4, q4, -, e4, r4⟩ := need_split (s := ⟨b3, q3⟩) (n := p.length) (x := p) (r := r) r3 rfl
  refine ⟨⟨b4, q4⟩, ?_, r4⟩
  unfold verify
  rw [e1]
  simp only [Res.bind_ok, List.cons_append, List.nil_append, takeU8_cons]
  rw [if_neg (by decide), hlu, e2]
  simp only [Res.bind_ok, hu, cred_complete hun]
  rw [e3]
  simp only [Res.bind_ok, List.cons_append, List.nil_append, takeU8_cons, hlp]
  rw [e4]
  simp only [Res.bind_ok, hp, cred_complete hpn]
  rfl

theorem head_complete {early : Bytes} {later : List Bytes} (c : Cfg) {n : UInt8} {m r : Bytes} (hm : m.length = n.toNat)
    {s : Src} (ht : At early later ([5, n] ++ m ++ r) s) :
    ∃ v s', head c s = .ok (v, s') ∧ At early later r s' ∧
      v = (if c.isUserPassword then (if (2 : UInt8) ∈ m ++ s'.buf then 2 else 0xFF) else 0) := by
  obtain ⟨b1, p1, e1, -, r1⟩ := need_split (s := s) (n := 2) (x := [5, n]) (r := m ++ r) (by simpa using ht) rfl
  obtain ⟨b2, p2, e2, -, r2⟩ := need_split (s := ⟨b1, p1⟩) (n := n.toNat) (x := m) (r := r) r1 hm
  refine ⟨_, ⟨b2, p2⟩, ?_, r2, rfl⟩
  unfold head
  simp only
  rw [e1]
  simp only [List.cons_append, List.nil_append, takeU8_cons, Res.bind_ok]
  simp only at e2
  rw [if_neg (by decide), e2]
  have hadv : advance n.toNat ⟨m ++ b2, p2⟩ = .ok ⟨b2, p2⟩ := by
    unfold advance; rw [if_pos (by simp; omega), ← hm]; simp
  simp only [hadv]; rfl

theorem serve_connect {early : Bytes} {later : List Bytes} {c : Cfg} {net : Net} {w t : Bytes} {a : SockAddr}
    (hT : Target net t a) {s : Src} (ht : At early later ([5, 1, 0] ++ t) s) (hc : net.connect a = true) :
    serve c net w s = ⟨w ++ [5, 0, 0, 1, 0, 0, 0, 0, 0, 0], [a], .relayed early later⟩ := by
  have e := readRequest_complete hT 1 ht
  unfold serve
  rw [e]
  simp only [show (1 : UInt8).toNat = 1 from rfl, if_true, hc]

theorem process_password {early : Bytes} {later : List Bytes} (c : Cfg) (net : Net) (u p : Bytes)
    (hu : c.username = some u) (hp : c.password = some p)
    (lu : u.length < 256) (lp : p.length < 256) (hun : u ≠ []) (hpn : p ≠ []) (n : UInt8) (methods : Bytes)
    (hm : methods.length = n.toNat) (h2 : 2 ∈ methods) (t : Bytes) (a : SockAddr) (hT : Target net t a)
    (hc : net.connect a = true) (s : Src)
    (ht : At early later ([5, n] ++ methods ++ ([1, UInt8.ofNat u.length] ++ u ++ [UInt8.ofNat p.length] ++ p)
        ++ ([5, 1, 0] ++ t)) s) :
    process c net s = ⟨[5, 2, 1, 0, 5, 0, 0, 1, 0, 0, 0, 0, 0, 0], [a], .relayed early later⟩ := by
  have hup : c.isUserPassword = true := by simp [Cfg.isUserPassword, hu, hp]
  obtain ⟨v, s1, e1, t1, hv⟩ := head_complete c (n := n) (m := methods) hm (s := s)
    (r := ([1, UInt8.ofNat u.length] ++ u ++ [UInt8.ofNat p.length] ++ p) ++ ([5, 1, 0] ++ t))
    (by rw [← List.append_assoc]; exact ht)
  rw [hup, if_pos rfl, if_pos (List.mem_append_left _ h2)] at hv
  obtain ⟨s2, e2, t2⟩ := verify_complete hu hp lu lp hun hpn t1
  have e3 := serve_connect (c := c) (w := [5, 2] ++ [1, 0]) hT t2 hc
  unfold process
  rw [e1]
  subst hv
  simp only
  rw [if_neg (by decide), if_pos trivial, e2]
  exact e3

theorem process_plain {early : Bytes} {later : List Bytes} (c : Cfg) (net : Net)
    (hn : c.username = none ∨ c.password = none) (n : UInt8)
    (methods : Bytes) (hm : methods.length = n.toNat) (t : Bytes) (a : SockAddr) (hT : Target net t a)
    (hc : net.connect a = true) (s : Src)
    (ht : At early later ([5, n] ++ methods ++ ([5, 1, 0] ++ t)) s) :
    process c net s = ⟨[5, 0, 5, 0, 0, 1, 0, 0, 0, 0, 0, 0], [a], .relayed early later⟩ := by
  have hup : c.isUserPassword = false := by
    rcases hn with h | h <;> simp [Cfg.isUserPassword, h]
  obtain ⟨v, s1, e1, t1, hv⟩ := head_complete c (n := n) (m := methods) hm (s := s) (r := [5, 1, 0] ++ t) ht
  rw [hup, if_neg (by simp)] at hv
  have e3 := serve_connect (c := c) (w := [5, 0]) hT t1 hc
  unfold process
  rw [e1]
  subst hv
  simp only
  rw [if_neg (by decide), if_neg (by decide)]
  exact e3

/-- **C52** A client that offers the password method and sends the configured credentials and a connect request is
    answered with the chosen method, the acceptance and the success reply, and connected to its target, in whatever pieces
    its bytes arrive. -/
theorem C52_credentials_enough (c : Cfg) (net : Net) (u p : Bytes) (hu : c.username = some u) (hp : c.password = some p)
    (lu : u.length < 256) (lp : p.length < 256) (hun : u ≠ []) (hpn : p ≠ []) (n : UInt8) (methods : Bytes)
    (hm : methods.length = n.toNat) (h2 : 2 ∈ methods) (t rest : Bytes) (a : SockAddr) (hT : Target net t a)
    (hc : net.connect a = true) (s : Src) (ho : Open s)
    (ht : total s = [5, n] ++ methods ++ ([1, UInt8.ofNat u.length] ++ u ++ [UInt8.ofNat p.length] ++ p)
        ++ ([5, 1, 0] ++ t) ++ rest) :
    (process c net s).connects = [a] ∧ (process c net s).written = [5, 2, 1, 0, 5, 0, 0, 1, 0, 0, 0, 0, 0, 0] ∧
      ∃ lost pending, (process c net s).fin = .relayed lost pending ∧ lost ++ pending.flatten = rest := by
  obtain ⟨early, later, hat, hr⟩ := at_of_total ho ht
  rw [process_password c net u p hu hp lu lp hun hpn n methods hm h2 t a hT hc s hat]
  exact ⟨rfl, rfl, early, later, rfl, hr⟩

theorem cred_wrong {w x b : Bytes} {q : List Bytes} (h : x ≠ w ∨ x = []) : cred (some w) x.length ⟨x ++ b, q⟩ = none := by
  unfold cred
  simp only [List.take_left]
  rw [if_pos]
  rcases h with h | h
  · exact .inr fun e => h e.symm
  · exact .inl (by rw [h]; rfl)

theorem verify_wrong {early : Bytes} {later : List Bytes} {c : Cfg} {u p u' p' : Bytes} (hu : c.username = some u)
    (hp : c.password = some p) (lu : u'.length < 256) (lp : p'.length < 256) (hne : u' ≠ u ∨ p' ≠ p) {s : Src}
    {r : Bytes}
    (ht : At early later (([1, UInt8.ofNat u'.length] ++ u' ++ [UInt8.ofNat p'.length] ++ p') ++ r) s) :
    ∃ s', verify c s = .ok (false, s') := by
  have hlu : (UInt8.ofNat u'.length).toNat = u'.length := by simp; omega
  have hlp : (UInt8.ofNat p'.length).toNat = p'.length := by simp; omega
  obtain ⟨b1, q1, -, e1, r1⟩ := need_split (s := s) (n := 2) (x := [1, UInt8.ofNat u'.length])
    (r := u' ++ (UInt8.ofNat p'.length :: (p' ++ r))) (by simpa using ht) rfl
  obtain ⟨b2, q2, -, e2, r2⟩ := need_split (s := ⟨b1, q1⟩) (n := u'.length) (x := u')
    (r := UInt8.ofNat p'.length :: (p' ++ r)) r1 rfl
  obtain ⟨b3, q3, -, e3, r3⟩ := need_split (s := ⟨b2, q2⟩) (n := 1) (x := [UInt8.ofNat p'.length])
    (r := p' ++ r) r2 rfl
  obtain ⟨b4, q4, -, e4, r4⟩ := need_split (s := ⟨b3, q3⟩) (n := p'.length) (x := p') (r := r) r3 rfl
  unfold verify
  rw [e1]
  simp only [Res.bind_ok, List.cons_append, List.nil_append, takeU8_cons]
  rw [if_neg (by decide), hlu, e2]
  by_cases h : u' ≠ u ∨ u' = []
  · simp only [Res.bind_ok, hu, cred_wrong h]
    exact ⟨_, rfl⟩
  · rw [not_or, not_not] at h
    obtain ⟨rfl, hun⟩ := h
    have hpne : p' ≠ p := by simpa using hne
    simp only [Res.bind_ok, hu, cred_complete hun]
    rw [e3]
    simp only [Res.bind_ok, List.cons_append, List.nil_append, takeU8_cons, hlp]
    rw [e4]
    simp only [Res.bind_ok, hp, cred_wrong (.inl hpne)]
    exact ⟨_, rfl⟩

/-- **C52** (refusal) A client that offers the password method and sends any other credentials is told that they are
    refused, and nothing is connected for it, whatever it sends behind them and in whatever pieces its bytes arrive. -/
theorem C52_refused (c : Cfg) (net : Net) (u p : Bytes) (hu : c.username = some u) (hp : c.password = some p)
    (u' p' : Bytes) (lu : u'.length < 256) (lp : p'.length < 256) (hne : u' ≠ u ∨ p' ≠ p) (n : UInt8) (methods : Bytes)
    (hm : methods.length = n.toNat) (h2 : 2 ∈ methods) (rest : Bytes) (s : Src) (ho : Open s)
    (ht : total s = [5, n] ++ methods ++ ([1, UInt8.ofNat u'.length] ++ u' ++ [UInt8.ofNat p'.length] ++ p') ++ rest) :
    process c net s = ⟨[5, 2, 1, 1], [], .err .verifyFail⟩ := by
  have hup : c.isUserPassword = true := by simp [Cfg.isUserPassword, hu, hp]
  obtain ⟨early, later, hat, -⟩ := at_of_total (r := rest) ho ht
  obtain ⟨v, s1, e1, t1, hv⟩ := head_complete c (n := n) (m := methods) hm (s := s)
    (r := ([1, UInt8.ofNat u'.length] ++ u' ++ [UInt8.ofNat p'.length] ++ p') ++ [])
    (by rw [List.append_nil]; exact hat)
  rw [hup, if_pos rfl, if_pos (List.mem_append_left _ h2)] at hv
  obtain ⟨s2, e2⟩ := verify_wrong hu hp lu lp hne t1
  unfold process
  rw [e1]
  subst hv
  simp only
  rw [if_neg (by decide), if_pos trivial, e2]
  rfl

example : Open ⟨[], [[5, 2, 0], [2, 1, 1, 117, 1], [112, 5, 1]]⟩ ∧
    total ⟨[], [[5, 2, 0], [2, 1, 1, 117, 1], [112, 5, 1]]⟩ =
      [5, 2] ++ [0, 2] ++ ([1, UInt8.ofNat [(117 : UInt8)].length] ++ [117] ++ [UInt8.ofNat [(112 : UInt8)].length] ++ [112]) ++ [5, 1] ∧
    ([117] : Bytes) ≠ [97] ∧ (2 : UInt8) ∈ [(0 : UInt8), 2] := by
  refine ⟨?_, by decide, by decide, by decide⟩
  simp [Open]

/-- **C52** Unless both username and password are configured no credentials are asked for: the method "none" is chosen
    and the request follows directly. -/
theorem C52_no_credentials (c : Cfg) (net : Net) (hn : c.username = none ∨ c.password = none) (n : UInt8)
    (methods : Bytes) (hm : methods.length = n.toNat) (t rest : Bytes) (a : SockAddr) (hT : Target net t a)
    (hc : net.connect a = true) (s : Src) (ho : Open s)
    (ht : total s = [5, n] ++ methods ++ ([5, 1, 0] ++ t) ++ rest) :
    (process c net s).connects = [a] ∧ (process c net s).written = [5, 0, 5, 0, 0, 1, 0, 0, 0, 0, 0, 0] := by
  obtain ⟨early, later, hat, hr⟩ := at_of_total ho ht
  rw [process_plain c net hn n methods hm t a hT hc s hat]
  exact ⟨rfl, rfl⟩

theorem serve_unreachable {early : Bytes} {later : List Bytes} {c : Cfg} {net : Net} {w t : Bytes} {a : SockAddr}
    (hT : Target net t a) {s : Src} (ht : At early later ([5, 1, 0] ++ t) s) (hc : net.connect a = false) :
    serve c net w s = ⟨w ++ [5, 1, 0, 1, 0, 0, 0, 0, 0, 0], [a], .unreachable⟩ := by
  have e := readRequest_complete hT 1 ht
  unfold serve
  rw [e]
  simp only [show (1 : UInt8).toNat = 1 from rfl, if_true, hc, Bool.false_eq_true, if_false]

/-- **C52** (unreachable targets) A client whose target cannot be connected is told so (reply 1, general failure) and never
    told that it is connected, with and without credentials. -/
theorem C52_unreachable (c : Cfg) (net : Net) (n : UInt8)
    (methods : Bytes) (hm : methods.length = n.toNat) (t rest : Bytes) (a : SockAddr) (hT : Target net t a)
    (hc : net.connect a = false) (s : Src) (ho : Open s) :
    ((c.username = none ∨ c.password = none) → total s = [5, n] ++ methods ++ ([5, 1, 0] ++ t) ++ rest →
      process c net s = ⟨[5, 0, 5, 1, 0, 1, 0, 0, 0, 0, 0, 0], [a], .unreachable⟩) ∧
    (∀ u p, c.username = some u → c.password = some p → u.length < 256 → p.length < 256 → u ≠ [] → p ≠ [] →
      2 ∈ methods → total s = [5, n] ++ methods ++ ([1, UInt8.ofNat u.length] ++ u ++ [UInt8.ofNat p.length] ++ p)
        ++ ([5, 1, 0] ++ t) ++ rest →
      process c net s = ⟨[5, 2, 1, 0, 5, 1, 0, 1, 0, 0, 0, 0, 0, 0], [a], .unreachable⟩) := by
  refine ⟨?_, ?_⟩
  · intro hn ht
    obtain ⟨early, later, hat, hr⟩ := at_of_total ho ht
    have hup : c.isUserPassword = false := by
      rcases hn with h | h <;> simp [Cfg.isUserPassword, h]
    obtain ⟨v, s1, e1, t1, hv⟩ := head_complete c (n := n) (m := methods) hm (s := s) (r := [5, 1, 0] ++ t) hat
    rw [hup, if_neg (by simp)] at hv
    have e3 := serve_unreachable (c := c) (w := [5, 0]) hT t1 hc
    unfold process
    rw [e1]
    subst hv
    simp only
    rw [if_neg (by decide), if_neg (by decide)]
    exact e3
  · intro u p hu hp lu lp hun hpn h2 ht
    obtain ⟨early, later, hat, hr⟩ := at_of_total ho ht
    have hup : c.isUserPassword = true := by simp [Cfg.isUserPassword, hu, hp]
    obtain ⟨v, s1, e1, t1, hv⟩ := head_complete c (n := n) (m := methods) hm (s := s)
      (r := ([1, UInt8.ofNat u.length] ++ u ++ [UInt8.ofNat p.length] ++ p) ++ ([5, 1, 0] ++ t))
      (by rw [← List.append_assoc]; exact hat)
    rw [hup, if_pos rfl, if_pos (List.mem_append_left _ h2)] at hv
    obtain ⟨s2, e2, t2⟩ := verify_complete hu hp lu lp hun hpn t1
    have e3 := serve_unreachable (c := c) (w := [5, 2] ++ [1, 0]) hT t2 hc
    unfold process
    rw [e1]
    subst hv
    simp only
    rw [if_neg (by decide), if_pos trivial, e2]
    exact e3

/-- a configuration and network for the concrete cases -/
def cfg1 : Cfg := ⟨some [97, 98], some [99], none⟩
def net1 : Net := ⟨fun _ => some [⟨.v4 0x01020304, 80⟩], fun _ => true⟩
/-- the bytes of a client offering the methods `m`, giving the credentials of `cfg1`, and asking for 1.2.3.4:80 -/
def hello (m : Bytes) : Bytes :=
  [5, UInt8.ofNat m.length] ++ m ++ [1, 2, 97, 98, 1, 99] ++ [5, 1, 0, 1, 1, 2, 3, 4, 0, 80]

example : Admitted (process cfg1 net1 ⟨[5], [[1, 2, 1, 2], [97], [98, 1, 99, 5, 1], [0, 1, 1, 2, 3, 4, 0, 80]]⟩) := by
  left; decide
example : (process cfg1 net1 ⟨hello [0, 2], []⟩).written = [5, 2, 1, 0, 5, 0, 0, 1, 0, 0, 0, 0, 0, 0] := by decide
example : process cfg1 { net1 with connect := fun _ => false } ⟨hello [0, 2], []⟩
    = ⟨[5, 2, 1, 0, 5, 1, 0, 1, 0, 0, 0, 0, 0, 0], [⟨.v4 0x01020304, 80⟩], .unreachable⟩ := by decide
example : ¬ Admitted (process cfg1 net1 ⟨[5, 1, 2, 1, 2, 97, 99, 1, 99, 5, 1, 0, 1, 1, 2, 3, 4, 0, 80], []⟩) := by
  unfold Admitted; decide

theorem readLen_enough {n : Nat} {buf : Bytes} (h : n ≤ buf.length) (ps : List Bytes) : readLen n buf ps = (⟨buf, ps⟩, true) := by
  cases ps with
  | nil => rw [readLen, if_pos h]
  | cons p ps => rw [readLen, if_pos h]

theorem head_whole (c : Cfg) {n : UInt8} {m : Bytes} (hm : m.length = n.toNat) (r : Bytes) (ps : List Bytes) :
    head c ⟨[5, n] ++ m ++ r, ps⟩ = .ok (if c.isUserPassword then (if (2 : UInt8) ∈ m ++ r then 2 else 0xFF) else 0, ⟨r, ps⟩) := by
  unfold head
  simp only
  rw [readLen_enough (by simp)]
  simp only [List.cons_append, List.nil_append, takeU8_cons, Res.bind_ok]
  rw [if_neg (by decide)]
  rw [readLen_enough (by rw [List.length_append]; omega)]
  have hadv : advance n.toNat ⟨m ++ r, ps⟩ = .ok ⟨r, ps⟩ := by
    unfold advance; rw [if_pos (by simp; omega), ← hm]; simp
  simp only [hadv]; rfl

/-- **C52** fails as to the offer, for every configuration with credentials and every offer: a client that does not offer the password
    method, and has sent its credentials and its request at once with the offer, is told to use the password method and admitted, if
    any byte behind the offer happens to be 2, such as the length of its name. -/
theorem C52_method_not_offered_fails (c : Cfg) (net : Net) (u p : Bytes) (hu : c.username = some u) (hp : c.password = some p)
    (lu : u.length < 256) (lp : p.length < 256) (hun : u ≠ []) (hpn : p ≠ []) (n : UInt8) (methods : Bytes)
    (hm : methods.length = n.toNat) (t : Bytes) (a : SockAddr) (hT : Target net t a) (hc : net.connect a = true)
    (later : List Bytes)
    (h2 : 2 ∈ ([1, UInt8.ofNat u.length] ++ u ++ [UInt8.ofNat p.length] ++ p) ++ ([5, 1, 0] ++ t)) :
    process c net ⟨[5, n] ++ methods ++ (([1, UInt8.ofNat u.length] ++ u ++ [UInt8.ofNat p.length] ++ p) ++ ([5, 1, 0] ++ t)), later⟩ =
      ⟨[5, 2, 1, 0, 5, 0, 0, 1, 0, 0, 0, 0, 0, 0], [a], .relayed [] later⟩ := by
  have hup : c.isUserPassword = true := by simp [Cfg.isUserPassword, hu, hp]
  have e1 := head_whole c hm (([1, UInt8.ofNat u.length] ++ u ++ [UInt8.ofNat p.length] ++ p) ++ ([5, 1, 0] ++ t)) later
  rw [hup, if_pos rfl, if_pos (List.mem_append_right _ h2)] at e1
  have t1 : At [] later (([1, UInt8.ofNat u.length] ++ u ++ [UInt8.ofNat p.length] ++ p) ++ ([5, 1, 0] ++ t))
      ⟨([1, UInt8.ofNat u.length] ++ u ++ [UInt8.ofNat p.length] ++ p) ++ ([5, 1, 0] ++ t), later⟩ :=
    ⟨[], by simp, rfl, by simp, .inl rfl⟩
  obtain ⟨s2, e2, t2⟩ := verify_complete hu hp lu lp hun hpn t1
  have e3 := serve_connect (c := c) (w := [5, 2] ++ [1, 0]) hT t2 hc
  unfold process
  rw [e1]
  simp only
  rw [if_neg (by decide), if_pos trivial, e2]
  exact e3

/-- a client that offers only "no authentication" -/
example : cfg1.username = some [97, 98] ∧ (2 : UInt8) ∈ ([1, UInt8.ofNat 2, 97, 98, UInt8.ofNat 1, 99] : Bytes) ∧
    process cfg1 net1 ⟨hello [0], []⟩ =
      ⟨[5, 2, 1, 0, 5, 0, 0, 1, 0, 0, 0, 0, 0, 0], [⟨.v4 0x01020304, 80⟩], .relayed [] []⟩ := by decide

/-- **C52** (the part of the offer that holds) If a client that waits for the answer to its offer (nothing is received behind
    the method list) did not offer the password method, it is refused with 0xFF and not admitted. -/
theorem C52_method_offered_partial (c : Cfg) (net : Net) (hc : c.username ≠ none ∧ c.password ≠ none) (n : UInt8) (methods : Bytes)
    (hm : methods.length = n.toNat) (h2 : 2 ∉ methods) (s : Src) (ho : Open s) (ht : total s = [5, n] ++ methods) :
    process c net s = ⟨[5, 0xFF], [], .err .verifyFail⟩ := by
  have hup : c.isUserPassword = true := by
    simp [Cfg.isUserPassword, Option.isSome_iff_ne_none, hc.1, hc.2]
  obtain ⟨early, later, hat, hr⟩ := at_of_total (r := []) (x := [5, n] ++ methods) ho (by rw [ht]; simp)
  obtain ⟨v, s1, e1, t1, hv⟩ := head_complete c (n := n) (m := methods) (r := []) hm (s := s) (by simpa using hat)
  have hb : s1.buf = [] := by
    rw [at_nil t1]; exact (List.append_eq_nil_iff.1 hr).1
  rw [hup, if_pos rfl, hb, List.append_nil, if_neg h2] at hv
  subst hv
  unfold process
  rw [e1]
  rfl

example : process cfg1 net1 ⟨[5], [[2], [0, 1]]⟩ = ⟨[5, 0xFF], [], .err .verifyFail⟩ := by decide

/-! ### Data behind the request -/

/-- what the relay carries to the target of what the client sends -/
def carried : End → Bytes
  | .relayed _ pending => pending.flatten
  | _ => []

/-- **C77** is false, always: if some bytes `early` that the client sends behind its request arrive in the same piece as
    the end of the request, they never reach the target, while everything that arrives later does. -/
theorem C77_early_data_fails (c : Cfg) (net : Net) (hn : c.username = none ∨ c.password = none) (n : UInt8)
    (methods : Bytes) (hm : methods.length = n.toNat) (t : Bytes) (a : SockAddr) (hT : Target net t a)
    (hc : net.connect a = true) (before : List Bytes) (last early : Bytes) (later : List Bytes)
    (hb : ∀ p ∈ before, p ≠ []) (hl : last ≠ [])
    (ht : before.flatten ++ last = [5, n] ++ methods ++ ([5, 1, 0] ++ t)) :
    let o := process c net ⟨[], before ++ [last ++ early] ++ later⟩
    o.connects = [a] ∧ carried o.fin = later.flatten := by
  have hlen : 0 < last.length := List.length_pos_iff.2 hl
  have hat : At early later ([5, n] ++ methods ++ ([5, 1, 0] ++ t)) ⟨[], before ++ [last ++ early] ++ later⟩ := by
    refine ⟨before ++ [last ++ early], ?_, rfl, ?_, Or.inr ⟨before, last ++ early, rfl, by simp; omega⟩⟩
    · intro p hp
      rcases List.mem_append.1 hp with hp | hp
      · exact hb p hp
      · simp only [List.mem_singleton] at hp; subst hp; simp [hl]
    · rw [← ht]; simp
  simp only
  rw [process_plain c net hn n methods hm t a hT hc _ hat]
  exact ⟨rfl, rfl⟩

example : (process ⟨none, none, none⟩ net1 ⟨[], [[5, 1], [0, 5, 1, 0, 1, 1, 2, 3, 4, 0, 80, 71, 69, 84], [32]]⟩).fin
    = .relayed [71, 69, 84] [[32]] := by decide
example : Target net1 [1, 1, 2, 3, 4, 0, 80] ⟨.v4 0x01020304, 80⟩ := Or.inl (by decide)

/-- **C77** (what holds) If the request ends where a piece ends, everything behind it reaches the target. -/
theorem C77_separate_data_partial (c : Cfg) (net : Net) (hn : c.username = none ∨ c.password = none) (n : UInt8)
    (methods : Bytes) (hm : methods.length = n.toNat) (t : Bytes) (a : SockAddr) (hT : Target net t a)
    (hc : net.connect a = true) (before later : List Bytes) (hb : ∀ p ∈ before, p ≠ [])
    (ht : before.flatten = [5, n] ++ methods ++ ([5, 1, 0] ++ t)) :
    let o := process c net ⟨[], before ++ later⟩
    o.connects = [a] ∧ carried o.fin = later.flatten := by
  have hne : before ≠ [] := by rintro rfl; simp at ht
  have hat : At [] later ([5, n] ++ methods ++ ([5, 1, 0] ++ t)) ⟨[], before ++ later⟩ := by
    refine ⟨before, hb, rfl, by rw [← ht]; simp, Or.inr ?_⟩
    refine ⟨before.dropLast, before.getLast hne, (List.dropLast_concat_getLast hne).symm, ?_⟩
    exact List.length_pos_iff.2 (hb _ (List.getLast_mem hne))
  simp only
  rw [process_plain c net hn n methods hm t a hT hc _ hat]
  exact ⟨rfl, rfl⟩

/-! ### UDP -/

/-- **C78** A datagram of the client is forwarded to the address in its header, with exactly the bytes that follow the
    header; header and data are exactly the datagram. -/
theorem C78_udp_forward (net : Net) (d : Bytes) (a : SockAddr) (data : Bytes) :
    udpForward net d = some (a, data) ↔
      ∃ x y t, d = [x, y, 0] ++ t ++ data ∧ Target net t a := by
  constructor
  · intro h
    unfold udpForward at h
    split at h
    · rename_i flag a' data' hp
      split at h
      · cases h
      · rename_i hf
        simp only [Option.some.injEq, Prod.mk.injEq] at h
        obtain ⟨h1, h2⟩ := h
        subst h1 h2
        unfold udpParse at hp
        split at hp
        · cases hp
        · obtain ⟨⟨v, s1⟩, e1, hp⟩ := Res.bind_eq_ok hp
          obtain ⟨x, y, -, t1, p1⟩ := takeU16_sound e1
          obtain ⟨⟨f, s2⟩, e2, hp⟩ := Res.bind_eq_ok hp
          obtain ⟨z, hz, t2, p2⟩ := takeU8_sound e2
          obtain ⟨⟨a2, s3⟩, e3, hp⟩ := Res.bind_eq_ok hp
          obtain ⟨t, t3, hT⟩ := readAddr_sound e3
          simp only [Res.pure_eq, Res.ok.injEq, Prod.mk.injEq] at hp
          obtain ⟨⟨h1, h2⟩, h3⟩ := hp
          subst h1 h2 h3
          have hz0 : z = 0 := UInt8.toNat_inj.1 (by rw [← hz]; simpa using hf)
          have hs2 : At (total s3) [] (t ++ []) s2 := by
            refine ⟨[], by simp, by rw [p2, p1]; rfl, ?_, Or.inl rfl⟩
            have : total s2 = s2.buf := by simp [total, p2, p1]
            rw [← this, t3]; simp
          have hne : s2.buf ≠ [] := by
            intro hnil
            obtain ⟨t0, t', htt⟩ := target_ne_nil hT
            have : total s2 = s2.buf := by simp [total, p2, p1]
            rw [this, hnil, htt] at t3; simp at t3
          obtain ⟨s', e', hs'⟩ := readAddr_complete hT hne hs2
          rw [e3] at e'
          simp only [Res.ok.injEq, Prod.mk.injEq, true_and] at e'
          have h3 := at_nil hs'
          rw [← e'] at h3
          refine ⟨x, y, t, ?_, hT⟩
          have h3b : s3.buf = total s3 := congrArg Src.buf h3
          have : total s2 = s2.buf := by simp [total, p2, p1]
          simp only at t1
          rw [t1, t2, ← this, t3, hz0, h3b]; simp
    · cases h
  · rintro ⟨x, y, t, hd, hT⟩
    obtain ⟨t0, t', htt⟩ := target_ne_nil hT
    obtain ⟨s', e, h1⟩ := readAddr_complete (r := []) hT (s := ⟨t ++ data, []⟩) (by rw [htt]; simp)
      (by simpa using at_buf t data [])
    rw [at_nil h1] at e
    unfold udpForward
    have : udpParse net d = .ok ((0, a), data) := by
      subst hd
      unfold udpParse
      rw [if_neg (by simp)]
      simp only [List.cons_append, List.nil_append, takeU16_cons, Res.bind_ok, takeU8_cons]
      rw [e]; rfl
    rw [this]
    simp

/-- **C78** The datagram sent to the client for one from `a` is read back by the same format as coming from `a` with the
    same data; so relaying through a second proxy of this kind changes nothing. -/
theorem C78_udp_reply (net : Net) (a : SockAddr) (data : Bytes) : udpForward net (udpReply a data) = some (a, data) :=
  (C78_udp_forward net _ a data).2 ⟨0, 0, encodeAddr a, rfl, Or.inl rfl⟩

example : udpForward net1 [0, 0, 0, 3, 1, 97, 0, 53, 1, 2] = some (⟨.v4 0x01020304, 80⟩, [1, 2]) := by decide

/-- **C79** is false: a datagram that is not addressed in the expected form, or is marked as a fragment, is not just dropped,
    it ends the association: nothing behind it is forwarded. -/
theorem C79_bad_datagram_fails (net : Net) (before : List Bytes) (d : Bytes) (after : List Bytes)
    (hd : ¬ ∃ x y t data a, d = [x, y, 0] ++ t ++ data ∧ Target net t a) :
    udpRun net (before ++ d :: after) = udpRun net before := by
  have hn : udpForward net d = none := by
    cases h : udpForward net d with
    | none => rfl
    | some r =>
      obtain ⟨a, data⟩ := r
      obtain ⟨x, y, t, h1, h2⟩ := (C78_udp_forward net d a data).1 h
      exact absurd ⟨x, y, t, data, a, h1, h2⟩ hd
  induction before with
  | nil => simp [udpRun, hn]
  | cons b bs ih =>
    simp only [List.cons_append, udpRun]
    cases udpForward net b with
    | none => rfl
    | some r => simp only; rw [ih]

example : ¬ ∃ x y t data a, ([0, 0, 1, 1, 1, 2, 3, 4, 0, 53, 7] : Bytes) = [x, y, 0] ++ t ++ data ∧ Target net1 t a := by
  rintro ⟨x, y, t, data, a, h, -⟩
  simp at h

/-- **C79** (what holds) Well-formed datagrams are forwarded each to its address, in order and once. -/
theorem C79_good_datagrams_partial (net : Net) (l : List (SockAddr × Bytes)) (ds : List Bytes)
    (hl : List.Forall₂ (fun x d => ∃ p q t, d = [p, q, 0] ++ t ++ x.2 ∧ Target net t x.1) l ds) :
    udpRun net ds = l := by
  induction hl with
  | nil => rfl
  | @cons x d l ds h _ ih =>
    obtain ⟨a, data⟩ := x
    have := (C78_udp_forward net d a data).2 h
    simp only [udpRun, this, ih]

/-! ### Panics -/

theorem process_panic_of_head {c : Cfg} {net : Net} {s : Src} (h : head c s = .panic) : (process c net s).fin = .panic := by
  unfold process; rw [h]

theorem readLen_eof (n : Nat) (buf : Bytes) (ps : List Bytes) (ho : ∀ p ∈ ps, p ≠ []) (h : (buf ++ ps.flatten).length < n) :
    (readLen n buf ps).1 = ⟨buf ++ ps.flatten, []⟩ := by
  induction ps generalizing buf with
  | nil => unfold readLen; split <;> simp
  | cons p ps ih =>
    unfold readLen
    rw [if_neg (by simp at h; omega), if_neg (ho p (by simp)), ih _ (fun q hq => ho q (List.mem_cons_of_mem _ hq)) (by simpa using h)]
    simp

/-- **C80** is false, always: a client that closes its connection within the first message (the method list) makes the
    handler panic. -/
theorem C80_early_close_fails (c : Cfg) (net : Net) (s : Src) (ho : Open s) (n : UInt8) (methods : Bytes)
    (hlt : total s = [] ∨ total s = [5] ∨ (total s = [5, n] ++ methods ∧ methods.length < n.toNat)) :
    (process c net s).fin = .panic := by
  apply process_panic_of_head
  unfold head
  simp only
  rcases hlt with h | h | ⟨h, hm⟩
  · have := readLen_eof 2 s.buf s.pending ho (by rw [show s.buf ++ s.pending.flatten = total s from rfl, h]; decide)
    rw [this, show s.buf ++ s.pending.flatten = total s from rfl, h]; rfl
  · have := readLen_eof 2 s.buf s.pending ho (by rw [show s.buf ++ s.pending.flatten = total s from rfl, h]; decide)
    rw [this, show s.buf ++ s.pending.flatten = total s from rfl, h]; rfl
  · obtain ⟨early, later, hat, hr⟩ := at_of_total ho h
    have hlater : ∀ p ∈ later, p ≠ [] := by
      obtain ⟨front, -, h2, -, -⟩ := hat
      intro p hp
      exact ho p (by rw [h2]; exact List.mem_append_right _ hp)
    obtain ⟨b, ps, e, -, hat2⟩ := need_split (n := 2) (x := [5, n]) (r := []) (by simpa using hat) rfl
    have hb := at_nil hat2
    injection hb with hb hps
    subst hb hps
    rw [e]
    simp only [List.cons_append, List.nil_append, takeU8_cons, Res.bind_ok]
    rw [if_neg (by decide), readLen_eof _ _ _ hlater (by rw [hr]; exact hm), hr]
    unfold advance
    rw [if_neg (by simp only; omega)]; rfl

theorem need_cases (n : Nat) (s : Src) : need n s = .err .ioError ∨ ∃ s', need n s = .ok s' ∧ n ≤ s'.buf.length := by
  cases h : need n s with
  | ok s' => exact Or.inr ⟨s', rfl, (need_sound h).2⟩
  | err e =>
    left
    unfold need at h
    split at h <;> cases h
    rfl
  | panic =>
    unfold need at h
    split at h <;> cases h

theorem takeU8_cases {k : Nat} {s : Src} (h : k + 1 ≤ s.buf.length) : ∃ v s', takeU8 s = .ok (v, s') ∧ k ≤ s'.buf.length := by
  obtain ⟨buf, ps⟩ := s
  cases buf with
  | nil => simp at h
  | cons a r => exact ⟨a.toNat, ⟨r, ps⟩, rfl, by simpa using h⟩

theorem takeU16_cases {k : Nat} {s : Src} (h : k + 2 ≤ s.buf.length) : ∃ v s', takeU16 s = .ok (v, s') ∧ k ≤ s'.buf.length := by
  obtain ⟨buf, ps⟩ := s
  match buf, h with
  | a :: b :: r, h => exact ⟨_, ⟨r, ps⟩, rfl, by simpa using h⟩
  | [a], h => simp at h
  | [], h => simp at h

theorem readAddr_no_panic {net : Net} (hr : ∀ t, net.resolve t ≠ some []) {s : Src} (h : 1 ≤ s.buf.length) :
    readAddr net s ≠ .panic := by
  unfold readAddr
  obtain ⟨atyp, s1, e1, -⟩ := takeU8_cases (k := 0) h
  rw [e1]
  simp only [Res.bind_ok]
  split
  · rcases need_cases 6 s1 with e | ⟨s2, e, h2⟩
    · rw [e]; simp
    · rw [e]
      obtain ⟨_, s3, e3, h3⟩ := takeU8_cases (k := 5) h2
      obtain ⟨_, s4, e4, h4⟩ := takeU8_cases (k := 4) h3
      obtain ⟨_, s5, e5, h5⟩ := takeU8_cases (k := 3) h4
      obtain ⟨_, s6, e6, h6⟩ := takeU8_cases (k := 2) h5
      obtain ⟨_, s7, e7, h7⟩ := takeU16_cases (k := 0) h6
      simp [e3, e4, e5, e6, e7]
  · split
    · rcases need_cases 1 s1 with e | ⟨s2, e, h2⟩
      · rw [e]; simp
      · rw [e]
        obtain ⟨len, s3, e3, h3⟩ := takeU8_cases (k := 0) h2
        simp only [Res.bind_ok, e3]
        rcases need_cases (len + 2) s3 with e4 | ⟨s4, e4, h4⟩
        · rw [e4]; simp
        · rw [e4]
          have hadv : advance len s4 = .ok { s4 with buf := s4.buf.drop len } := by
            unfold advance; rw [if_pos (by omega)]
          obtain ⟨port, s5, e5, -⟩ := takeU16_cases (k := 0) (s := { s4 with buf := s4.buf.drop len })
            (by simp only [List.length_drop]; omega)
          simp only [Res.bind_ok, hadv, e5]
          split
          · simp
          · rename_i hh; exact absurd hh (hr _)
          · simp
    · split
      · rcases need_cases 18 s1 with e | ⟨s2, e, h2⟩
        · rw [e]; simp
        · rw [e]
          obtain ⟨_, s3, e3, h3⟩ := takeU16_cases (k := 16) h2
          obtain ⟨_, s4, e4, h4⟩ := takeU16_cases (k := 14) h3
          obtain ⟨_, s5, e5, h5⟩ := takeU16_cases (k := 12) h4
          obtain ⟨_, s6, e6, h6⟩ := takeU16_cases (k := 10) h5
          obtain ⟨_, s7, e7, h7⟩ := takeU16_cases (k := 8) h6
          obtain ⟨_, s8, e8, h8⟩ := takeU16_cases (k := 6) h7
          obtain ⟨_, s9, e9, h9⟩ := takeU16_cases (k := 4) h8
          obtain ⟨_, s10, e10, h10⟩ := takeU16_cases (k := 2) h9
          obtain ⟨_, s11, e11, h11⟩ := takeU16_cases (k := 0) h10
          simp [e3, e4, e5, e6, e7, e8, e9, e10, e11]
      · simp

/-- **C80** fails: a datagram of exactly three bytes makes the association panic, and (as long as no host name resolves to an
    empty list of addresses) no other datagram does. -/
theorem C80_short_datagram_fails (net : Net) (d : Bytes) :
    (d.length = 3 → udpParse net d = .panic) ∧
      ((∀ t, net.resolve t ≠ some []) → udpParse net d = .panic → d.length = 3) := by
  constructor
  · intro h
    match d, h with
    | [x, y, z], _ => rfl
  · intro hr hp
    unfold udpParse at hp
    by_cases h3 : d.length < 3
    · rw [if_pos h3] at hp; cases hp
    · rw [if_neg h3] at hp
      match d, h3 with
      | [x, y, z], _ => rfl
      | x :: y :: z :: w :: l, _ =>
        exfalso
        have hn := readAddr_no_panic hr (s := ⟨w :: l, []⟩) (by simp)
        have e1 : takeU16 ⟨x :: y :: z :: w :: l, []⟩ = .ok (x.toNat * 256 + y.toNat, ⟨z :: w :: l, []⟩) := rfl
        have e2 : takeU8 ⟨z :: w :: l, []⟩ = .ok (z.toNat, ⟨w :: l, []⟩) := rfl
        rw [e1] at hp
        simp only [Res.bind_ok, e2] at hp
        cases hra : readAddr net ⟨w :: l, []⟩ with
        | ok x => rw [hra] at hp; cases hp
        | err e => rw [hra] at hp; cases hp
        | panic => exact hn hra
      | [], h => exact absurd (by simp) h
      | [_], h => exact absurd (by simp) h
      | [_, _], h => exact absurd (by simp) h

example : udpParse net1 [0, 0, 0] = .panic ∧ udpParse net1 [0, 0, 0, 1] ≠ .panic := by decide

theorem readRequest_no_panic {net : Net} (hr : ∀ t, net.resolve t ≠ some []) (s : Src) : readRequest net s ≠ .panic := by
  unfold readRequest
  rcases need_cases 4 s with e | ⟨s1, e, h1⟩
  · rw [e]; simp
  · rw [e]
    obtain ⟨v, s2, e2, h2⟩ := takeU8_cases (k := 3) h1
    obtain ⟨k, s3, e3, h3⟩ := takeU8_cases (k := 2) h2
    obtain ⟨r, s4, e4, h4⟩ := takeU8_cases (k := 1) h3
    simp only [Res.bind_ok, e2]
    split
    · simp
    · simp only [Res.bind_ok, e3, e4]
      split
      · simp
      · have := readAddr_no_panic hr h4
        cases hra : readAddr net s4 with
        | ok x => simp
        | err e => simp
        | panic => exact absurd hra this

theorem verify_no_panic (c : Cfg) (s : Src) : verify c s ≠ .panic := by
  unfold verify
  rcases need_cases 2 s with e | ⟨s1, e, h1⟩
  · rw [e]; simp
  · rw [e]
    obtain ⟨v, s2, e2, h2⟩ := takeU8_cases (k := 1) h1
    obtain ⟨k, s3, e3, h3⟩ := takeU8_cases (k := 0) h2
    simp only [Res.bind_ok, e2]
    split
    · simp
    · simp only [Res.bind_ok, e3]
      rcases need_cases k s3 with e4 | ⟨s4, e4, -⟩
      · rw [e4]; simp
      · rw [e4]
        simp only [Res.bind_ok]
        split
        · simp
        · rename_i s5 _
          rcases need_cases 1 s5 with e6 | ⟨s6, e6, h6⟩
          · rw [e6]; simp
          · rw [e6]
            obtain ⟨m, s7, e7, h7⟩ := takeU8_cases (k := 0) h6
            simp only [Res.bind_ok, e7]
            rcases need_cases m s7 with e8 | ⟨s8, e8, -⟩
            · rw [e8]; simp
            · rw [e8]
              simp only [Res.bind_ok]
              split <;> simp

theorem serve_no_panic {c : Cfg} {net : Net} (hr : ∀ t, net.resolve t ≠ some []) (w : Bytes) (s : Src) :
    (serve c net w s).fin ≠ .panic := by
  unfold serve
  have := readRequest_no_panic hr s
  cases h : readRequest net s with
  | panic => exact absurd h this
  | err e => simp
  | ok x =>
    obtain ⟨⟨cmd, a⟩, s'⟩ := x
    simp only
    repeat' split
    all_goals simp

/-- **C80** (what holds) Nothing else in the handshake panics: after a complete method list the only panic is a host name that
    resolves to an empty list of addresses. -/
theorem C80_handshake_partial (c : Cfg) (net : Net) (hr : ∀ t, net.resolve t ≠ some []) (s : Src) (n : UInt8)
    (methods rest : Bytes) (ho : Open s) (hm : methods.length = n.toNat) (ht : total s = [5, n] ++ methods ++ rest) :
    (process c net s).fin ≠ .panic := by
  obtain ⟨early, later, hat, -⟩ := at_of_total ho ht
  obtain ⟨v, s1, e1, -, -⟩ := head_complete c (n := n) (m := methods) (r := []) hm (s := s) (by simpa using hat)
  unfold process
  rw [e1]
  simp only
  split
  · simp
  · split
    · have := verify_no_panic c s1
      cases h : verify c s1 with
      | panic => exact absurd h this
      | err e => simp
      | ok y =>
        obtain ⟨b, s2⟩ := y
        cases b with
        | false => simp
        | true => exact serve_no_panic hr _ _
    · exact serve_no_panic hr _ _

example : (process cfg1 net1 ⟨[5, 3, 0], [[1]]⟩).fin = .panic := by decide

theorem readLen_first {n : Nat} (hn : 0 < n) (buf : Bytes) (ps : List Bytes) (ho : ∀ p ∈ ps, p ≠ []) {x : UInt8} {l : Bytes}
    (h : buf ++ ps.flatten = x :: l) : ∃ r q, (readLen n buf ps).1 = ⟨x :: r, q⟩ := by
  induction ps generalizing buf with
  | nil =>
    have hb : buf = x :: l := by simpa using h
    subst hb
    unfold readLen
    split <;> exact ⟨_, _, rfl⟩
  | cons p ps ih =>
    unfold readLen
    by_cases hl : n ≤ buf.length
    · rw [if_pos hl]
      cases buf with
      | nil => simp at hl; omega
      | cons b r =>
        have : b = x := by simp at h; exact h.1
        subst this
        exact ⟨_, _, rfl⟩
    · rw [if_neg hl, if_neg (ho p (by simp))]
      exact ih _ (fun q hq => ho q (List.mem_cons_of_mem _ hq)) (by simpa using h)

/-- **C80** (what holds, exactly) As long as no host name resolves to an empty list of addresses, the handler of a connection
    panics exactly when the client closes within its first message: before the first byte, after the version 5, or within
    the list of methods it has announced. -/
theorem C80_handshake_exact_partial (c : Cfg) (net : Net) (hr : ∀ t, net.resolve t ≠ some []) (s : Src) (ho : Open s) :
    (process c net s).fin = .panic ↔
      total s = [] ∨ total s = [5] ∨ ∃ (n : UInt8) (methods : Bytes), total s = [5, n] ++ methods ∧ methods.length < n.toNat := by
  constructor
  · intro hp
    match ht : total s with
    | [] => exact Or.inl rfl
    | x :: l =>
      by_cases hx : x = 5
      · subst hx
        match l, ht with
        | [], _ => exact Or.inr (Or.inl rfl)
        | n :: m, ht =>
          by_cases hm : m.length < n.toNat
          · exact Or.inr (Or.inr ⟨n, m, rfl, hm⟩)
          · exact absurd hp (C80_handshake_partial c net hr s n (m.take n.toNat) (m.drop n.toNat) ho
              (by rw [List.length_take]; omega) (by rw [ht]; simp))
      · exfalso
        obtain ⟨r, q, e⟩ := readLen_first (n := 2) (by decide) s.buf s.pending ho (show s.buf ++ s.pending.flatten = x :: l from ht)
        have hh : head c s = .err .sizeNotMatch := by
          unfold head
          simp only [e, takeU8_cons, Res.bind_ok]
          rw [if_pos]
          intro h5
          exact hx (UInt8.toNat_inj.1 h5)
        unfold process at hp
        rw [hh] at hp
        cases hp
  · rintro (h | h | ⟨n, m, h, hm⟩)
    · exact C80_early_close_fails c net s ho 0 [] (Or.inl h)
    · exact C80_early_close_fails c net s ho 0 [] (Or.inr (Or.inl h))
    · exact C80_early_close_fails c net s ho n m (Or.inr (Or.inr ⟨h, hm⟩))

example : (process cfg1 net1 ⟨[4], []⟩).fin ≠ .panic ∧ (process cfg1 net1 ⟨[], []⟩).fin = .panic := by decide
end Wm.Socks
