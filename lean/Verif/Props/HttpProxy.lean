import Verif.Model.HttpProxy
import Verif.Model.BasicLemmas
import Verif.Proofs.Text
/-!
Properties C53, C54, C81–C84: the HTTP proxy (src/proxy/http.rs), the choice of the protocol (src/proxy/server.rs), the
protocol flags (src/flag.rs).
-/
namespace Wm.HttpProxy
open Wm

/-! ### Texts -/

theorem splitOn_pieces (f : Char → Bool) (s : Text) : ∀ x ∈ splitOn f s, ∀ c ∈ x, f c = false := by
  induction s with
  | nil => simp [splitOn]
  | cons d s ih =>
    rw [splitOn]
    split
    · intro x hx
      rcases List.mem_cons.1 hx with rfl | hx
      · simp
      · exact ih x hx
    · rename_i hd
      cases h : splitOn f s with
      | nil => exact absurd h (splitOn_ne_nil f s)
      | cons p ps =>
        rw [h] at ih
        intro x hx
        rcases List.mem_cons.1 hx with rfl | hx
        · intro c hc
          rcases List.mem_cons.1 hc with rfl | hc
          · simpa using hd
          · exact ih p (by simp) c hc
        · exact ih x (List.mem_cons_of_mem _ hx)

theorem splitOn_one (f : Char → Bool) (s x : Text) (h : splitOn f s = [x]) : s = x := by
  induction s generalizing x with
  | nil => simp [splitOn] at h; exact h.symm
  | cons d s ih =>
    rw [splitOn] at h
    split at h
    · exact absurd (by simpa using h) (fun h : _ ∧ _ => splitOn_ne_nil f s h.2)
    · cases hs : splitOn f s with
      | nil => exact absurd hs (splitOn_ne_nil f s)
      | cons p ps =>
        rw [hs] at h ih
        simp only [List.cons.injEq] at h
        obtain ⟨h1, h2⟩ := h
        subst h2
        rw [← h1, ih p rfl]

theorem splitOn_two (f : Char → Bool) (s x y : Text) (h : splitOn f s = [x, y]) : ∃ c, f c = true ∧ s = x ++ c :: y := by
  induction s generalizing x with
  | nil => simp [splitOn] at h
  | cons d s ih =>
    rw [splitOn] at h
    split at h
    · rename_i hd
      simp only [List.cons.injEq] at h
      exact ⟨d, hd, by rw [← h.1, splitOn_one f s y h.2]; rfl⟩
    · cases hs : splitOn f s with
      | nil => exact absurd hs (splitOn_ne_nil f s)
      | cons p ps =>
        rw [hs] at h ih
        simp only [List.cons.injEq] at h
        obtain ⟨h1, h2⟩ := h
        subst h2
        obtain ⟨c, hc, e⟩ := ih p rfl
        exact ⟨c, hc, by rw [← h1, e]; rfl⟩

theorem fromUtf8_some {b : Bytes} {t : Text} : fromUtf8 b = some t ↔ b = utf8 t := by
  unfold fromUtf8
  constructor
  · intro h
    split at h
    · rename_i hb; injection h with h; subst h; exact hb.symm
    · cases h
  · rintro rfl
    rw [lossy_utf8, if_pos rfl]

/-! ### Base64, as RFC 4648 writes it -/

/-- the character for a value below 64 -/
def b64Chr (n : Nat) : Char :=
  if n < 26 then Char.ofNat (65 + n) else if n < 52 then Char.ofNat (71 + n) else if n < 62 then Char.ofNat (n - 4)
  else if n = 62 then '+' else '/'

/-- the encoding of a byte string, padded -/
def b64Encode : Bytes → Text
  | [] => []
  | [a] => [b64Chr (a.toNat / 4), b64Chr (a.toNat % 4 * 16), '=', '=']
  | [a, b] => [b64Chr (a.toNat / 4), b64Chr (a.toNat % 4 * 16 + b.toNat / 16), b64Chr (b.toNat % 16 * 4), '=']
  | a :: b :: c :: r =>
    [b64Chr (a.toNat / 4), b64Chr (a.toNat % 4 * 16 + b.toNat / 16), b64Chr (b.toNat % 16 * 4 + c.toNat / 64),
      b64Chr (c.toNat % 64)] ++ b64Encode r

theorem b64Chr_fin : ∀ n : Fin 64, b64Val (b64Chr n.val) = some n.val ∧ isWs (b64Chr n.val) = false := by decide

theorem b64Val_chr {n : Nat} (h : n < 64) : b64Val (b64Chr n) = some n := (b64Chr_fin ⟨n, h⟩).1
theorem b64Chr_ws {n : Nat} (h : n < 64) : isWs (b64Chr n) = false := (b64Chr_fin ⟨n, h⟩).2

theorem b64_roundtrip (b : Bytes) : b64Decode (b64Encode b) = some b := by
  have he : b64Val '=' = none := by decide
  induction b using b64Encode.induct with
  | case1 => rfl
  | case2 a =>
    have ha := a.toNat_lt
    simp only [b64Encode, b64Decode, b64Group]
    rw [b64Val_chr (by omega), b64Val_chr (by omega), he]
    simp only [beq_self_eq_true, true_and]
    rw [if_pos (by omega)]
    simp only [List.append_nil, Option.some.injEq, List.cons.injEq, and_true]
    apply UInt8.toNat_inj.1; simp; omega
  | case3 a b =>
    have ha := a.toNat_lt; have hb := b.toNat_lt
    simp only [b64Encode, b64Decode, b64Group]
    rw [b64Val_chr (by omega), b64Val_chr (by omega), b64Val_chr (by omega), he]
    simp only [beq_self_eq_true, true_and]
    rw [if_pos (by omega)]
    simp only [List.append_nil, Option.some.injEq, List.cons.injEq, and_true]
    refine ⟨?_, ?_⟩ <;> apply UInt8.toNat_inj.1 <;> simp <;> omega
  | case4 a b c r ih =>
    have ha := a.toNat_lt; have hb := b.toNat_lt; have hc := c.toNat_lt
    simp only [b64Encode, List.cons_append, List.nil_append, b64Decode, b64Group]
    rw [b64Val_chr (by omega), b64Val_chr (by omega), b64Val_chr (by omega), b64Val_chr (by omega), ih]
    simp only [List.cons_append, List.nil_append, Option.some.injEq, List.cons.injEq, and_true]
    refine ⟨?_, ?_, ?_⟩ <;> apply UInt8.toNat_inj.1 <;> simp <;> omega

theorem b64Val_inv {c : Char} {n : Nat} (h : b64Val c = some n) : n < 64 ∧ b64Chr n = c := by
  have hc : Char.ofNat c.toNat = c := Char.ofNat_toNat c
  unfold b64Val at h
  dsimp only at h
  unfold b64Chr
  split at h
  · rename_i h1
    cases h
    refine ⟨by omega, ?_⟩
    rw [if_pos (by omega), show 65 + (c.toNat - 65) = c.toNat by omega, hc]
  · split at h
    · rename_i h1
      cases h
      refine ⟨by omega, ?_⟩
      rw [if_neg (by omega), if_pos (by omega), show 71 + (c.toNat - 71) = c.toNat by omega, hc]
    · split at h
      · rename_i h1
        cases h
        refine ⟨by omega, ?_⟩
        rw [if_neg (by omega), if_neg (by omega), if_pos (by omega), show c.toNat + 4 - 4 = c.toNat by omega, hc]
      · split at h
        · rename_i h1
          cases h
          refine ⟨by omega, ?_⟩
          rw [← hc, h1]; rfl
        · split at h
          · rename_i h1
            cases h
            refine ⟨by omega, ?_⟩
            rw [← hc, h1]; rfl
          · cases h

/-- only encodings can be decoded -/
theorem b64Decode_some {s : Text} {b : Bytes} (h : b64Decode s = some b) : s = b64Encode b := by
  induction s using b64Decode.induct generalizing b with
  | case1 => cases h; rfl
  | case2 x1 x2 x3 x4 r u v hv hu ih =>
    simp only [b64Decode, hu, hv, Option.some.injEq] at h
    subst h
    have hr := ih hv
    unfold b64Group at hu
    split at hu
    · rename_i x y hx hy
      obtain ⟨lx, rfl⟩ := b64Val_inv hx
      obtain ⟨ly, rfl⟩ := b64Val_inv hy
      split at hu
      · rename_i z w hz hw
        obtain ⟨lz, rfl⟩ := b64Val_inv hz
        obtain ⟨lw, rfl⟩ := b64Val_inv hw
        cases hu
        simp only [List.cons_append, List.nil_append, b64Encode, UInt8.toNat_ofNat']
        rw [← hr, show (x * 4 + y / 16) % 2 ^ 8 / 4 = x by omega,
          show (x * 4 + y / 16) % 2 ^ 8 % 4 * 16 + (y % 16 * 16 + z / 4) % 2 ^ 8 / 16 = y by omega,
          show (y % 16 * 16 + z / 4) % 2 ^ 8 % 16 * 4 + (z % 4 * 64 + w) % 2 ^ 8 / 64 = z by omega,
          show (z % 4 * 64 + w) % 2 ^ 8 % 64 = w by omega]
      · rename_i z hz hw
        obtain ⟨lz, rfl⟩ := b64Val_inv hz
        split at hu
        · rename_i hc
          obtain ⟨h1, rfl, h3⟩ := hc
          have h1 : r = [] := by simpa using h1
          subst h1
          cases hv
          cases hu
          simp only [List.append_nil, b64Encode, UInt8.toNat_ofNat']
          rw [show (x * 4 + y / 16) % 2 ^ 8 / 4 = x by omega,
            show (x * 4 + y / 16) % 2 ^ 8 % 4 * 16 + (y % 16 * 16 + z / 4) % 2 ^ 8 / 16 = y by omega,
            show (y % 16 * 16 + z / 4) % 2 ^ 8 % 16 * 4 = z by omega]
        · cases hu
      · split at hu
        · rename_i hc
          obtain ⟨h1, rfl, rfl, h3⟩ := hc
          have h1 : r = [] := by simpa using h1
          subst h1
          cases hv
          cases hu
          simp only [List.append_nil, b64Encode, UInt8.toNat_ofNat']
          rw [show (x * 4 + y / 16) % 2 ^ 8 / 4 = x by omega, show (x * 4 + y / 16) % 2 ^ 8 % 4 * 16 = y by omega]
        · cases hu
    · cases hu
  | case3 x1 x2 x3 x4 r hno =>
    unfold b64Decode at h
    split at h
    · rename_i h1 h2; exact absurd h2 (hno _ _ h1)
    · cases h
  | case4 s h1 h2 =>
    unfold b64Decode at h
    split at h
    · exact absurd rfl h1
    · exact absurd rfl (h2 _ _ _ _ _)
    · cases h

theorem b64Encode_ws (b : Bytes) : ∀ c ∈ b64Encode b, isWs c = false := by
  have he : isWs '=' = false := by decide
  induction b using b64Encode.induct with
  | case1 => simp [b64Encode]
  | case2 a =>
    have ha := a.toNat_lt
    intro c hc
    simp only [b64Encode, List.mem_cons, List.not_mem_nil, or_false] at hc
    rcases hc with rfl | rfl | rfl | rfl
    · exact b64Chr_ws (by omega)
    · exact b64Chr_ws (by omega)
    · exact he
    · exact he
  | case3 a b =>
    have ha := a.toNat_lt; have hb := b.toNat_lt
    intro c hc
    simp only [b64Encode, List.mem_cons, List.not_mem_nil, or_false] at hc
    rcases hc with rfl | rfl | rfl | rfl
    · exact b64Chr_ws (by omega)
    · exact b64Chr_ws (by omega)
    · exact b64Chr_ws (by omega)
    · exact he
  | case4 a b c r ih =>
    have ha := a.toNat_lt; have hb := b.toNat_lt; have hcc := c.toNat_lt
    intro x hx
    simp only [b64Encode, List.cons_append, List.nil_append, List.mem_cons] at hx
    rcases hx with rfl | rfl | rfl | rfl | hx
    · exact b64Chr_ws (by omega)
    · exact b64Chr_ws (by omega)
    · exact b64Chr_ws (by omega)
    · exact b64Chr_ws (by omega)
    · exact ih x hx

theorem b64Encode_ne_nil {b : Bytes} (h : b ≠ []) : b64Encode b ≠ [] := by
  match b, h with
  | [a], _ => simp [b64Encode]
  | [a, b], _ => simp [b64Encode]
  | a :: b :: c :: r, _ => simp [b64Encode]

/-! ### Credentials -/

/-- The request carries a `Proxy-Authorization` header whose second word is base64 for `user:password`. -/
def Presents (u p : Text) (r : Req) : Prop :=
  ∃ v scheme cred more, r.auth = some (some v) ∧ splitWs v = scheme :: cred :: more ∧
    cred = b64Encode (utf8 (u ++ ':' :: p))

theorem checkBasicAuth_true {u p v : Text} (h : checkBasicAuth u p v = .ok true) :
    (∃ scheme cred more, splitWs v = scheme :: cred :: more ∧ b64Decode cred = some (utf8 (u ++ ':' :: p))) ∧
      ':' ∉ u ∧ ':' ∉ p := by
  unfold checkBasicAuth at h
  split at h
  · cases h
  · rename_i scheme cred more hv
    split at h
    · cases h
    · rename_i b hb
      split at h
      · cases h
      · rename_i t ht
        split at h
        · rename_i x y hs
          simp only [Res.ok.injEq, Bool.and_eq_true, decide_eq_true_eq] at h
          obtain ⟨rfl, rfl⟩ := h
          obtain ⟨c, hc, e⟩ := splitOn_two _ _ _ _ hs
          have hp := splitOn_pieces (· = ':') t
          rw [hs] at hp
          refine ⟨⟨scheme, cred, more, hv, ?_⟩, ?_, ?_⟩
          · rw [hb, fromUtf8_some.1 ht, e]
            simp only [decide_eq_true_eq] at hc
            rw [hc]
          · intro hx; simpa using hp x (by simp) ':' hx
          · intro hx; simpa using hp y (by simp) ':' hx
        · cases h
  · cases h

theorem authorized_true {u p : Text} {r : Req} (h : authorized (some u) (some p) r = .ok true) :
    Presents u p r ∧ ':' ∉ u ∧ ':' ∉ p := by
  unfold authorized at h
  simp only at h
  split at h
  · rename_i v hv
    obtain ⟨⟨s, c, m, h1, h2⟩, h3⟩ := checkBasicAuth_true h
    exact ⟨⟨v, s, c, m, hv, h1, b64Decode_some h2⟩, h3⟩
  · cases h

/-- Something of the client was passed on: a request was forwarded, or a tunnel is to be joined. -/
def Passed (x : St × List Eff) : Prop := (∃ e ∈ x.2, e.forwards ≠ []) ∨ x.1.tunnel ≠ none

theorem operate_passed {u p : Text} {st : St} {r : Req} {a : Bool} {b : Reply}
    (h : (operate (some u) (some p) st r a b).2.forwards ≠ [] ∨ (operate (some u) (some p) st r a b).1 ≠ st) :
    st.kept ≠ none ∨ Presents u p r := by
  unfold operate at h
  split at h
  · rename_i hk; left; rw [hk]; simp
  · split at h
    · simp at h
    · split at h
      · simp at h
      · split at h
        · simp at h
        · simp at h
        · simp at h
        · rename_i ha; exact Or.inr (authorized_true ha).1

/-- **C53** With credentials configured, nothing a client sends on a connection is passed on unless some request of the
    connection presented the credentials. (A request that was passed on because an earlier one presented them need not
    present them again.) -/
theorem C53_credentials_needed_partial (u p : Text) (rs : List (Req × Bool × Reply))
    (h : Passed (run (some u) (some p) St.init rs)) : ∃ x ∈ rs, Presents u p x.1 := by
  have main : ∀ (rs : List (Req × Bool × Reply)) (st : St),
      ((∃ e ∈ (run (some u) (some p) st rs).2, e.forwards ≠ []) ∨ (run (some u) (some p) st rs).1 ≠ st) →
      st.kept ≠ none ∨ ∃ x ∈ rs, Presents u p x.1 := by
    intro rs
    induction rs with
    | nil => intro st h; simp [run] at h
    | cons x rs ih =>
      intro st h
      obtain ⟨r, a, b⟩ := x
      simp only [run] at h
      by_cases hst : (operate (some u) (some p) st r a b).1 = st
      · rw [hst] at h
        rcases h with ⟨e, he, hf⟩ | h
        · rcases List.mem_cons.1 he with rfl | he
          · rcases operate_passed (Or.inl hf) with h | h
            · exact Or.inl h
            · exact Or.inr ⟨_, List.mem_cons_self, h⟩
          · rcases ih st (Or.inl ⟨e, he, hf⟩) with h | ⟨y, hy, h⟩
            · exact Or.inl h
            · exact Or.inr ⟨y, List.mem_cons_of_mem _ hy, h⟩
        · rcases ih st (Or.inr h) with h | ⟨y, hy, h⟩
          · exact Or.inl h
          · exact Or.inr ⟨y, List.mem_cons_of_mem _ hy, h⟩
      · rcases operate_passed (Or.inr hst) with h | h
        · exact Or.inl h
        · exact Or.inr ⟨_, List.mem_cons_self, h⟩
  have h' : (∃ e ∈ (run (some u) (some p) St.init rs).2, e.forwards ≠ []) ∨
      (run (some u) (some p) St.init rs).1 ≠ St.init := by
    rcases h with h | h
    · exact Or.inl h
    · right; intro he; rw [he] at h; exact h rfl
  rcases main rs St.init h' with h | h
  · exact absurd rfl h
  · exact h

/-- the header `Basic` with the encoded credentials passes -/
theorem basic_accepted (u p : Text) (hu : ':' ∉ u) (hp : ':' ∉ p) (host : Option Text) (connect : Bool) :
    authorized (some u) (some p) ⟨host, connect, some (some ("Basic ".toList ++ b64Encode (utf8 (u ++ ':' :: p))))⟩
      = .ok true := by
  have hne : utf8 (u ++ ':' :: p) ≠ [] := fun he => by
    have := utf8_eq_nil.1 he; simp at this
  have hw : splitWs ("Basic ".toList ++ b64Encode (utf8 (u ++ ':' :: p)))
      = ["Basic".toList, b64Encode (utf8 (u ++ ':' :: p))] := by
    have : "Basic ".toList = "Basic".toList ++ [' '] := by decide
    rw [this, List.append_assoc, List.singleton_append,
      splitWs_sep _ _ _ (by decide) (by decide) (by decide), splitWs_single _ (b64Encode_ne_nil hne) (b64Encode_ws _)]
  have hs : splitOn (· = ':') (u ++ ':' :: p) = [u, p] := by
    rw [splitOn_sep _ _ _ ':' (fun c hc => by simp; rintro rfl; exact hu hc) (by decide),
      splitOn_none _ _ (fun c hc => by simp; rintro rfl; exact hp hc)]
  show checkBasicAuth u p ("Basic ".toList ++ b64Encode (utf8 (u ++ ':' :: p))) = .ok true
  unfold checkBasicAuth
  rw [hw]
  simp only
  rw [b64_roundtrip]
  simp only
  rw [fromUtf8_some.2 rfl]
  simp only
  rw [hs]
  simp

/-- **C53** The credentials in the usual form are accepted, if neither contains a colon. -/
theorem C53_credentials_enough_partial (u p : Text) (hu : ':' ∉ u) (hp : ':' ∉ p) (h : Text) (connect : Bool) :
    operate (some u) (some p) St.init
        ⟨some h, connect, some (some ("Basic ".toList ++ b64Encode (utf8 (u ++ ':' :: p))))⟩ true .response =
      (if connect then ⟨none, some h⟩ else ⟨some h, none⟩,
        ⟨[h], if connect then [] else [(h, none)], if connect then .status 200 else .upstream⟩) := by
  have ha := basic_accepted u p hu hp (some h) connect
  simp only [operate, St.init, ha, authLeft]
  cases connect <;> simp

example : Presents "ab".toList "c".toList ⟨some "x:80".toList, false, some (some "Basic YWI6Yw==".toList)⟩ :=
  ⟨_, "Basic".toList, "YWI6Yw==".toList, [], rfl, by decide, by decide⟩
example : b64Encode (utf8 "ab:c".toList) = "YWI6Yw==".toList := by decide

/-- **C53** is false for names and passwords with a colon: no request is ever passed on, whatever it presents. -/
theorem C53_colon_fails (u p : Text) (hc : ':' ∈ u ∨ ':' ∈ p) (st : St) (hk : st.kept = none) (r : Req) (a : Bool) (b : Reply) :
    (operate (some u) (some p) st r a b).2.forwards = [] ∧ (operate (some u) (some p) st r a b).1 = st := by
  unfold operate
  rw [hk]
  simp only
  split
  · exact ⟨rfl, rfl⟩
  · split
    · exact ⟨rfl, rfl⟩
    · split
      · exact ⟨rfl, rfl⟩
      · exact ⟨rfl, rfl⟩
      · exact ⟨rfl, rfl⟩
      · rename_i ha
        obtain ⟨-, h1, h2⟩ := authorized_true ha
        rcases hc with h | h
        · exact absurd h h1
        · exact absurd h h2

/-- **C53** is false: without any credentials a client makes the proxy connect to the target it names; every first request
    does. -/
theorem C53_connects_first_fails (u p : Option Text) (r : Req) (h : Text) (hh : r.host = some h) (a : Bool) (b : Reply) :
    (operate u p St.init r a b).2.connects = [h] := by
  unfold operate
  simp only [St.init, hh]
  split
  · rfl
  · split
    · rfl
    · rfl
    · rfl
    · split
      · rfl
      · split <;> rfl

/-- **C53** A first request without the header, to a reachable target, is answered with 407. -/
theorem C53_asked_partial (u p : Text) (r : Req) (h : Text) (hh : r.host = some h) (ha : r.auth = none) (b : Reply) :
    (operate (some u) (some p) St.init r true b).2.answer = .status 407 := by
  simp [operate, St.init, hh, authorized, ha]

/-! ### Panics -/

/-- **C81** is false, exactly: with credentials configured and no kept connection, a request to a reachable target makes the
    handler panic if its `Proxy-Authorization` is blank or its second word is not base64. -/
theorem C81_header_fails (u p : Text) (r : Req) (h v : Text) (hh : r.host = some h) (hv : r.auth = some (some v)) (b : Reply) :
    (operate (some u) (some p) St.init r true b).2.answer = .panic ↔
      splitWs v = [] ∨ ∃ scheme cred more, splitWs v = scheme :: cred :: more ∧ ∀ bs, cred ≠ b64Encode bs := by
  have hno : ∀ c : Text, (∀ bs, c ≠ b64Encode bs) ↔ b64Decode c = none := by
    intro c
    constructor
    · intro hc
      cases hd : b64Decode c with
      | none => rfl
      | some bs => exact absurd (b64Decode_some hd) (hc bs)
    · rintro hc bs rfl
      rw [b64_roundtrip] at hc; cases hc
  simp only [hno]
  have key : checkBasicAuth u p v = .panic ↔
      splitWs v = [] ∨ ∃ scheme cred more, splitWs v = scheme :: cred :: more ∧ b64Decode cred = none := by
    unfold checkBasicAuth
    match hs : splitWs v with
    | [] => simp
    | [x] => simp
    | x :: y :: z =>
      simp only [reduceCtorEq, false_or, List.cons.injEq]
      cases hb : b64Decode y with
      | none => simp only [true_iff]; exact ⟨x, y, z, ⟨rfl, rfl, rfl⟩, hb⟩
      | some bs =>
        simp only
        constructor
        · intro h
          exfalso; revert h
          repeat' split
          all_goals simp
        · rintro ⟨_, _, _, ⟨rfl, rfl, rfl⟩, h⟩
          rw [hb] at h; cases h
  rw [← key]
  have ha : authorized (some u) (some p) r = checkBasicAuth u p v := by simp [authorized, hv]
  simp only [operate, St.init, hh, ha, not_true, if_false]
  cases hc : checkBasicAuth u p v with
  | panic => simp
  | err e => simp
  | ok x =>
    cases x
    · simp
    · simp only [reduceCtorEq, iff_false]
      split
      · simp
      · split <;> simp

example : (operate (some "u".toList) (some "p".toList) St.init
    ⟨some "x:80".toList, false, some (some "Basic !".toList)⟩ true .response).2.answer = .panic := by decide

/-! ### Where requests go -/

/-- **C82** is false, always: once one request was passed on and its target answered, be it with an error, every later one of the connection goes to the
    target of that request, whatever target it names. -/
theorem C82_target_fails (u p : Option Text) (st : St) (h : Text) (hk : st.kept = some h) (rs : List (Req × Bool × Reply)) :
    ∀ e ∈ (run u p st rs).2, e.connects = [] ∧ e.forwards.map Prod.fst = [h] := by
  induction rs with
  | nil => simp [run]
  | cons x rs ih =>
    obtain ⟨r, a, b⟩ := x
    have : operate u p st r a b = (st, ⟨[], [(h, r.auth)], if b = .response then .upstream else .err⟩) := by
      unfold operate; rw [hk]
    simp only [run, this]
    intro e he
    rcases List.mem_cons.1 he with rfl | he
    · exact ⟨rfl, rfl⟩
    · exact ih e he

/-- **C82** is false from the first request on: if the target of a connection's first request is reached and answers — be it
    with an error — then every request of the connection goes there, and no other target is ever connected to. -/
theorem C82_first_fails (u p : Option Text) (hup : u = none ∨ p = none) (r : Req) (h : Text) (hh : r.host = some h)
    (hc : r.connect = false) (b : Reply) (hb : b ≠ .over) (rs : List (Req × Bool × Reply)) :
    ∀ e ∈ (run u p St.init ((r, true, b) :: rs)).2, (∀ t ∈ e.connects, t = h) ∧ e.forwards.map Prod.fst = [h] := by
  have ha : authorized u p r = .ok true := by
    rcases hup with rfl | rfl
    · rfl
    · cases u <;> rfl
  have hk : (operate u p St.init r true b).1.kept = some h ∧ (operate u p St.init r true b).2.connects = [h] ∧
      (operate u p St.init r true b).2.forwards.map Prod.fst = [h] := by
    simp only [operate, St.init, hh, ha, hc]
    cases b <;> simp at hb ⊢
  simp only [run]
  intro e he
  rcases List.mem_cons.1 he with rfl | he
  · exact ⟨fun t ht => List.mem_singleton.1 (hk.2.1 ▸ ht), hk.2.2⟩
  · have := C82_target_fails u p _ h hk.1 rs e he
    exact ⟨fun t ht => (List.not_mem_nil (this.1 ▸ ht)).elim, this.2⟩

example : (run none none St.init [(⟨some "a:80".toList, false, none⟩, true, .failed),
    (⟨some "b:80".toList, true, none⟩, true, .response)]).2.map (fun e => (e.connects, e.forwards)) =
    [(["a:80".toList], [("a:80".toList, none)]), ([], [("a:80".toList, none)])] := by decide

/-- **C82** (what holds) Until then a request is passed on only to the target it names. -/
theorem C82_target_partial (u p : Option Text) (st : St) (hk : st.kept = none) (r : Req) (a : Bool) (b : Reply) :
    ∀ x ∈ (operate u p st r a b).2.forwards, r.host = some x.1 := by
  unfold operate
  rw [hk]
  simp only
  split
  · simp
  · rename_i h hh
    split
    · simp
    · split
      · simp
      · simp
      · simp
      · split
        · simp
        · split <;> simp [hh]

example : ((run none none St.init [(⟨some "a:80".toList, false, none⟩, true, .response),
    (⟨some "b:80".toList, false, none⟩, true, .response)]).2.map Eff.forwards) =
    [[("a:80".toList, none)], [("a:80".toList, none)]] := by decide

/-- **C82** (what holds) Without credentials configured every request before that — to a target that can be connected to — is passed
    on to the target it names, with its headers, or gets a tunnel to it. -/
theorem C82_reached (u p : Option Text) (hup : u = none ∨ p = none) (st : St) (hk : st.kept = none) (r : Req) (h : Text)
    (hh : r.host = some h) (b : Reply) :
    (r.connect = false → (operate u p st r true b).2.forwards = [(h, r.auth)]) ∧
    (r.connect = true → (operate u p st r true b).1.tunnel = some h ∧ (operate u p st r true b).2.answer = .status 200) := by
  have ha : authorized u p r = .ok true := by
    rcases hup with rfl | rfl
    · rfl
    · cases u <;> rfl
  have hl : authLeft u p r = r.auth := by
    rcases hup with rfl | rfl <;> simp [authLeft]
  constructor
  · intro hc
    simp only [operate, hk, hh, ha, hl, hc]
    cases b <;> rfl
  · intro hc
    simp [operate, hk, hh, ha, hc]

example : (operate none none St.init ⟨some ['h'], false, none⟩ true .response).2.forwards = [(['h'], none)] ∧
    (operate none (some ['p']) St.init ⟨some ['h'], true, none⟩ true .response).1.tunnel = some ['h'] := by decide

/-- **C82** (what holds) As long as no target has answered — each closed its connection without an answer, or was not reached — every
    request of a connection is passed on only to the target it names, and the next one is treated as the first. -/
theorem C82_closed_partial (u p : Option Text) (st : St) (hk : st.kept = none) (rs : List (Req × Bool × Reply))
    (h : ∀ x ∈ rs, x.2.1 = false ∨ x.2.2 = .over) :
    (run u p st rs).1.kept = none ∧
      List.Forall₂ (fun x e => ∀ y ∈ e.forwards, x.1.host = some y.1) rs (run u p st rs).2 := by
  induction rs generalizing st with
  | nil => exact ⟨hk, .nil⟩
  | cons x rs ih =>
    obtain ⟨r, a, b⟩ := x
    have h0 : (operate u p st r a b).1.kept = none := by
      rcases h (r, a, b) List.mem_cons_self with h | h
      · dsimp only at h
        subst h
        unfold operate
        rw [hk]
        cases r.host <;> exact hk
      · dsimp only at h
        subst h
        unfold operate
        rw [hk]
        dsimp only
        repeat' split
        all_goals first | exact hk | rfl
    obtain ⟨h1, h2⟩ := ih _ h0 (fun x hx => h x (List.mem_cons_of_mem _ hx))
    exact ⟨h1, .cons (C82_target_partial u p st hk r a b) h2⟩

example : (run none none St.init [(⟨some ['h'], false, none⟩, true, .over), (⟨some ['g'], false, none⟩, true, .over)]).2.map
    Eff.forwards = [[(['h'], none)], [(['g'], none)]] := by decide

/-- **C83** is false: with credentials configured, the credentials a client sends with its second request are sent on to the
    target. -/
theorem C83_credentials_leak_fails (u p : Text) (hu : ':' ∉ u) (hp : ':' ∉ p) (h : Text) :
    let r : Req := ⟨some h, false, some (some ("Basic ".toList ++ b64Encode (utf8 (u ++ ':' :: p))))⟩
    ((run (some u) (some p) St.init [(r, true, .response), (r, true, .response)]).2.map Eff.forwards) =
      [[(h, none)], [(h, r.auth)]] := by
  intro r
  have h1 := C53_credentials_enough_partial u p hu hp h false
  simp only [Bool.false_eq_true, if_false] at h1
  simp only [run, List.map_cons, List.map_nil]
  rw [show operate (some u) (some p) St.init r true .response = _ from h1]
  rfl

/-- **C83** (what holds) With credentials configured, a request that is the first to be passed on does not carry them. -/
theorem C83_first_partial (u p : Text) (st : St) (hk : st.kept = none) (r : Req) (a : Bool) (b : Reply) :
    ∀ x ∈ (operate (some u) (some p) st r a b).2.forwards, x.2 = none := by
  unfold operate
  rw [hk]
  simp only
  split
  · simp
  · split
    · simp
    · split
      · simp
      · simp
      · simp
      · split
        · simp
        · split <;> simp [authLeft]

/-! ### Choice of the protocol -/

/-- the bytes a handler gets to see -/
def seen : Served → Option Bytes
  | .http r p => some (r ++ p.flatten)
  | .socks r p => some (r ++ p.flatten)
  | _ => none

/-- **C54** No byte is lost or added on the way to the handler. -/
theorem C54_bytes (f : Flag) (pieces : List Bytes) (b : Bytes) (h : seen (serve f pieces) = some b) : b = pieces.flatten := by
  unfold serve at h
  split at h
  · split at h
    · simp [seen] at h
    · split at h
      · simp [seen] at h
      · split at h
        · split at h
          · simp [seen] at h; rw [← h]; simp
          · simp [seen] at h
        · simp [seen] at h; rw [← h]; simp
  · split at h
    · simp [seen] at h; rw [← h]
    · simp [seen] at h

/-- **C54** A client whose first byte is 5 is served by SOCKS5 exactly if that is enabled, and never by HTTP. -/
theorem C54_socks (f : Flag) (rest : Bytes) (ps : List Bytes) :
    ((∃ r p, serve f ((5 :: rest) :: ps) = .socks r p) ↔ f.has Flag.socks5 = true) ∧
    ¬ ∃ r p, serve f ((5 :: rest) :: ps) = .http r p := by
  unfold serve
  simp only [if_true]
  cases hs : f.has Flag.socks5 <;> cases hh : (f.has Flag.http || f.has Flag.https) <;> simp

/-- **C54** A client with another first byte is served by HTTP exactly if http or https is enabled. -/
theorem C54_http (f : Flag) (x : UInt8) (hx : x ≠ 5) (rest : Bytes) (ps : List Bytes) :
    (∃ r p, serve f ((x :: rest) :: ps) = .http r p) ↔ (f.has Flag.http = true ∨ f.has Flag.https = true) := by
  unfold serve
  simp only [hx, if_false]
  cases hs : f.has Flag.socks5 <;> cases h1 : f.has Flag.http <;> cases h2 : f.has Flag.https <;> simp

/-- **C54** is false as to disabled protocols: with only https enabled, plain http requests are served, too. -/
theorem C54_https_only_fails (x : UInt8) (hx : x ≠ 5) (rest : Bytes) (ps : List Bytes) :
    ∃ f : Flag, f.has Flag.http = false ∧ serve f ((x :: rest) :: ps) = .http (x :: rest) ps := by
  refine ⟨Flag.https, by decide, ?_⟩
  unfold serve
  rw [if_pos (by decide)]
  simp [hx]

/-- **C54** is false as to UDP: its flag contains those of https and socks5, so enabling only UDP forwarding serves both
    protocols. -/
theorem C54_udp_flag_fails : Flag.udp.has Flag.https = true ∧ Flag.udp.has Flag.socks5 = true ∧
    (∀ rest ps, ∃ r p, serve Flag.udp ((5 :: rest) :: ps) = .socks r p) := by
  refine ⟨by decide, by decide, fun rest ps => ?_⟩
  exact ((C54_socks Flag.udp rest ps).1).2 (by decide)

/-! ### The flags as text -/

theorem flag_fin : ∀ n : Fin 256, ∀ f : Flag, f = BitVec.ofFin (w := 8) n →
    ((f ||| Flag.http).has Flag.http = true ∧ (f ||| Flag.https).has Flag.http = f.has Flag.http ∧
      (f ||| Flag.socks5).has Flag.http = f.has Flag.http) ∧
    ((f ||| Flag.http).has Flag.https = f.has Flag.https ∧ (f ||| Flag.https).has Flag.https = true ∧
      (f ||| Flag.socks5).has Flag.https = f.has Flag.https) ∧
    ((f ||| Flag.http).has Flag.socks5 = f.has Flag.socks5 ∧ (f ||| Flag.https).has Flag.socks5 = f.has Flag.socks5 ∧
      (f ||| Flag.socks5).has Flag.socks5 = true) := by
  have : ∀ n : Fin 256, let f : Flag := BitVec.ofFin (w := 8) n
    ((f ||| Flag.http).has Flag.http = true ∧ (f ||| Flag.https).has Flag.http = f.has Flag.http ∧
      (f ||| Flag.socks5).has Flag.http = f.has Flag.http) ∧
    ((f ||| Flag.http).has Flag.https = f.has Flag.https ∧ (f ||| Flag.https).has Flag.https = true ∧
      (f ||| Flag.socks5).has Flag.https = f.has Flag.https) ∧
    ((f ||| Flag.http).has Flag.socks5 = f.has Flag.socks5 ∧ (f ||| Flag.https).has Flag.socks5 = f.has Flag.socks5 ∧
      (f ||| Flag.socks5).has Flag.socks5 = true) := by decide +kernel
  rintro n f rfl
  exact this n

/-- the words of a text that name a protocol -/
def Names (ws : List Text) (w w' : String) : Prop := w.toList ∈ ws ∨ w'.toList ∈ ws

theorem foldl_flagWord (ws : List Text) (f : Flag) :
    ((ws.foldl flagWord f).has Flag.http = true ↔ f.has Flag.http = true ∨ Names ws "http" "HTTP") ∧
    ((ws.foldl flagWord f).has Flag.https = true ↔ f.has Flag.https = true ∨ Names ws "https" "HTTPS") ∧
    ((ws.foldl flagWord f).has Flag.socks5 = true ↔ f.has Flag.socks5 = true ∨ Names ws "socks5" "SOCKS5") := by
  induction ws generalizing f with
  | nil => simp [Names]
  | cons w ws ih =>
    obtain ⟨h1, h2, h3⟩ := ih (flagWord f w)
    obtain ⟨⟨a1, a2, a3⟩, ⟨b1, b2, b3⟩, c1, c2, c3⟩ := flag_fin f.toFin f rfl
    simp only [List.foldl_cons, h1, h2, h3]
    unfold flagWord Names
    simp only [List.mem_cons]
    by_cases e1 : w = "http".toList ∨ w = "HTTP".toList
    · rw [if_pos e1, a1, b1, c1]
      rcases e1 with rfl | rfl <;> simp
    · rw [if_neg e1]
      by_cases e2 : w = "https".toList ∨ w = "HTTPS".toList
      · rw [if_pos e2, a2, b2, c2]
        rcases e2 with rfl | rfl <;> simp
      · rw [if_neg e2]
        by_cases e3 : w = "socks5".toList ∨ w = "SOCKS5".toList
        · rw [if_pos e3, a3, b3, c3]
          rcases e3 with rfl | rfl <;> simp
        · rw [if_neg e3]
          simp only [not_or] at e1 e2 e3
          obtain ⟨p1, p2⟩ := e1
          obtain ⟨p3, p4⟩ := e2
          obtain ⟨p5, p6⟩ := e3
          simp only [eq_comm (b := w), p1, p2, p3, p4, p5, p6, false_or]
          exact ⟨trivial, trivial, trivial⟩

/-- **C84** The protocols named by a non-empty text are exactly those among its words (in lower or upper case). -/
theorem C84_text_partial (s : Text) (hs : s ≠ []) : ∃ f, parseFlag s = some f ∧
    (f.has Flag.http = true ↔ Names (splitWs s) "http" "HTTP") ∧
    (f.has Flag.https = true ↔ Names (splitWs s) "https" "HTTPS") ∧
    (f.has Flag.socks5 = true ↔ Names (splitWs s) "socks5" "SOCKS5") := by
  obtain ⟨h1, h2, h3⟩ := foldl_flagWord (splitWs s) 0
  refine ⟨_, if_neg hs, h1.trans ?_, h2.trans ?_, h3.trans ?_⟩
  · rw [show Flag.has 0 Flag.http = false by decide]; simp
  · rw [show Flag.has 0 Flag.https = false by decide]; simp
  · rw [show Flag.has 0 Flag.socks5 = false by decide]; simp

/-- **C84** is false for misspelt words: they are ignored, and a text of such words enables nothing. -/
theorem C84_misspelt_fails (s : Text) (hs : s ≠ []) (h : ∀ w ∈ splitWs s, w ∉ ["http".toList, "HTTP".toList, "https".toList,
    "HTTPS".toList, "socks5".toList, "SOCKS5".toList]) : parseFlag s = some 0 := by
  unfold parseFlag
  rw [if_neg hs]
  congr 1
  generalize splitWs s = ws at h
  induction ws with
  | nil => rfl
  | cons w ws ih =>
    have hw := h w (by simp)
    simp only [List.mem_cons, not_or] at hw
    obtain ⟨p1, p2, p3, p4, p5, p6, -⟩ := hw
    have : flagWord 0 w = 0 := by
      unfold flagWord
      rw [if_neg (by simp only [p1, p2, or_self, not_false_iff]), if_neg (by simp only [p3, p4, or_self, not_false_iff]),
        if_neg (by simp only [p5, p6, or_self, not_false_iff])]
    rw [List.foldl_cons, this]
    exact ih (fun x hx => h x (List.mem_cons_of_mem _ hx))

example : parseFlag "Http, socks".toList = some 0 := by decide

/-- **C84** Written as text and read back, every set of the three proxy protocols except the empty one is the same; the
    empty one cannot be read back. (All sets.) -/
theorem C84_roundtrip_partial : ∀ n : Fin 8, parseFlag (showFlag (BitVec.ofNat 8 n.val)) =
    if n.val = 0 then none else some (BitVec.ofNat 8 n.val) := by decide

/-- **C84** is false for numbers: each number with an unknown bit is taken as "http", which it may not even contain. -/
theorem C84_number_fails : (∀ n : BitVec 8, n &&& 0xE0 ≠ 0 → flagOfNumber n = Flag.http) ∧
    ∃ n : BitVec 8, n &&& Flag.http = 0 ∧ flagOfNumber n = Flag.http := ⟨by decide +kernel, 0x20, by decide, by decide⟩

end Wm.HttpProxy
