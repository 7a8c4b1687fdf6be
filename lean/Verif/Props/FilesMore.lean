import Verif.Props.Files
/-! Properties C97 (which file is sent) and C98 (precompressed forms). -/
namespace Wm.Files
open Wm

/-- the request path is the server's prefix followed by `h`, which starts with a slash; percent-encoded paths are decoded -/
def Names (e : Fs) (f : FileSrv) (path h : Text) : Prop :=
  h.head? = some '/' ∧ (('%' ∉ path ∧ path = f.pfx ++ h) ∨
    ('%' ∈ path ∧ f.pfx <+: path ∧ e.decode path = some (f.pfx ++ h)))

/-- nothing in the configuration hides the request: no hidden text occurs in the directory or in the path, and it is not
    the request for the configured robots text -/
def Shown (e : Fs) (f : FileSrv) (r path h : Text) : Prop :=
  (∀ x ∈ f.hide, ¬ x <:+: r ∧ ¬ x <:+: f.pfx ++ h) ∧ (f.robots = none ∨ path ≠ "/robots.txt".toList)

theorem isHide_false {f : FileSrv} {p : Text} (h : ∀ x ∈ f.hide, ¬ x <:+: p) : isHide f p = false := by
  unfold isHide
  rw [List.any_eq_false]
  intro x hx hc
  exact h x hx ((containsText_iff p x).1 hc)

theorem stripPrefix_append (p h : Text) : stripPrefix p (p ++ h) = some h := stripPrefix_eq_some.2 rfl

/-- what happens to a request that names `h` below the root `r` -/
theorem dealRequest_names {e : Fs} {f : FileSrv} {r path h : Text} (accept : Option Text) (hroot : f.root = some r)
    (hr : r ≠ []) (hn : Names e f path h) (hs : Shown e f r path h) :
    dealRequest e f path accept =
      if e.isDir (withIndex e f (r ++ h)) then
        if !f.browse then .refused
        else .listing (withIndex e f (r ++ h))
          (((e.entries (withIndex e f (r ++ h))).map (joinPath (withIndex e f (r ++ h)))).filter (fun p => !isHide f p)) f.rate
      else byFile e f accept (withIndex e f (r ++ h)) := by
  obtain ⟨hh, hp⟩ := hn
  obtain ⟨hhide, hrob⟩ := hs
  have hro : rootOf e f = r := by unfold rootOf; rw [hroot]; simp [hr]
  have hsl : withSlash h = h := by unfold withSlash; rw [if_pos hh]
  have hdec : decoded e path = f.pfx ++ h := by
    unfold decoded
    rcases hp with ⟨h1, h2⟩ | ⟨h1, _, h2⟩
    · rw [if_neg h1, h2]
    · rw [if_pos h1, h2]; rfl
  have hpre : (stripPrefix f.pfx path).isNone = false := by
    have hpp : f.pfx <+: path := by
      rcases hp with ⟨_, h2⟩ | ⟨_, h2, _⟩
      · exact h2 ▸ List.prefix_append _ _
      · exact h2
    obtain ⟨t, ht⟩ := hpp
    rw [← ht, stripPrefix_append]; rfl
  have h0 : ¬ (path = ['/', 'r', 'o', 'b', 'o', 't', 's', '.', 't', 'x', 't'] ∧ f.robots.isSome) := by
    rintro ⟨h1, h2⟩
    rcases hrob with h3 | h3
    · rw [h3] at h2; cases h2
    · exact h3 h1
  have hst : startsWithPath (r ++ h) r = true := by
    have := C49_check_fails r h hr
    rwa [hsl] at this
  unfold dealRequest
  rw [if_neg h0, hpre, hdec, stripPrefix_append, hro]
  simp only [Bool.false_eq_true, if_false, hsl, hst, isHide_false (fun x hx => (hhide x hx).1),
    isHide_false (fun x hx => (hhide x hx).2), Bool.not_true, Bool.or_self]

/-- the first accepted precompressed form that exists, as a specification: `enc` is configured, occurs in the client's list
    of encodings, is one of the two known ones, and the file with its ending exists -/
structure Offers (e : Fs) (accept p enc n : Text) : Prop where
  accepted : enc <:+: accept
  file : (enc = "gzip".toList ∧ n = p ++ ".gz".toList) ∨ (enc = "br".toList ∧ n = p ++ ".br".toList)
  there : e.ex n = true

theorem prePick_some {e : Fs} {accept p : Text} {l : List Text} {n enc : Text} :
    prePick e accept p l = some (n, enc) ↔
      ∃ pre post, l = pre ++ enc :: post ∧ Offers e accept p enc n ∧ ∀ x ∈ pre, ∀ m, ¬ Offers e accept p x m := by
  have hname : ∀ x m, preName p x = some m ↔
      (x = "gzip".toList ∧ m = p ++ ".gz".toList) ∨ (x = "br".toList ∧ m = p ++ ".br".toList) := by
    intro x m
    unfold preName
    have e1 : ("gzip".toList : Text) = ['g', 'z', 'i', 'p'] := rfl
    have e2 : ("br".toList : Text) = ['b', 'r'] := rfl
    have e3 : (".gz".toList : Text) = ['.', 'g', 'z'] := rfl
    have e4 : (".br".toList : Text) = ['.', 'b', 'r'] := rfl
    rw [e1, e2, e3, e4]
    by_cases h1 : x = ['g', 'z', 'i', 'p']
    · subst h1
      have : (['g', 'z', 'i', 'p'] : Text) ≠ ['b', 'r'] := by decide
      simp only [if_true, Option.some.injEq, true_and, this, false_and, or_false]
      exact eq_comm
    · rw [if_neg h1]
      by_cases h2 : x = ['b', 'r']
      · subst h2
        simp only [if_true, Option.some.injEq, true_and, h1, false_and, false_or]
        exact eq_comm
      · simp [h1, h2]
  induction l with
  | nil => simp [prePick]
  | cons a l ih =>
    have skip : (∀ m, ¬ Offers e accept p a m) → (prePick e accept p l = some (n, enc) ↔
        ∃ pre post, a :: l = pre ++ enc :: post ∧ Offers e accept p enc n ∧ ∀ x ∈ pre, ∀ m, ¬ Offers e accept p x m) := by
      intro hno
      refine Iff.trans ih ?_
      constructor
      · rintro ⟨pre, post, rfl, ho, hp⟩
        refine ⟨a :: pre, post, rfl, ho, ?_⟩
        intro x hx
        rcases List.mem_cons.1 hx with rfl | hx
        · exact hno
        · exact hp x hx
      · rintro ⟨pre, post, he, ho, hp⟩
        cases pre with
        | nil =>
          simp only [List.nil_append, List.cons.injEq] at he
          exact absurd (he.1 ▸ ho) (hno n)
        | cons b pre =>
          simp only [List.cons_append, List.cons.injEq] at he
          exact ⟨pre, post, he.2, ho, fun x hx => hp x (List.mem_cons_of_mem _ hx)⟩
    rw [prePick]
    by_cases hacc : containsText accept a = true
    · rw [if_neg (by simp [hacc])]
      cases hpn : preName p a with
      | none =>
        exact skip (fun m ho => by rw [(hname a m).2 ho.file] at hpn; cases hpn)
      | some m =>
        simp only
        by_cases hex : e.ex m = true
        · rw [if_pos hex]
          have ho : Offers e accept p a m := ⟨(containsText_iff _ _).1 hacc, (hname a m).1 hpn, hex⟩
          constructor
          · intro h
            simp only [Option.some.injEq, Prod.mk.injEq] at h
            obtain ⟨rfl, rfl⟩ := h
            exact ⟨[], l, rfl, ho, by simp⟩
          · rintro ⟨pre, post, he, ho', hp⟩
            cases pre with
            | nil =>
              simp only [List.nil_append, List.cons.injEq] at he
              have := (hname enc n).2 ho'.file
              rw [← he.1, hpn] at this
              injection this with this
              rw [this, he.1]
            | cons b pre =>
              simp only [List.cons_append, List.cons.injEq] at he
              exact absurd (he.1 ▸ ho) (hp b List.mem_cons_self m)
        · rw [if_neg hex]
          refine skip (fun m' ho => ?_)
          have := (hname a m').2 ho.file
          rw [hpn] at this
          injection this with this
          exact hex (this ▸ ho.there)
    · rw [if_pos (by simpa using hacc)]
      exact skip (fun m ho => hacc ((containsText_iff _ _).2 ho.accepted))

theorem prePick_none {e : Fs} {accept p : Text} {l : List Text} (h : ∀ x ∈ l, ∀ m, ¬ Offers e accept p x m) :
    prePick e accept p l = none := by
  cases hp : prePick e accept p l with
  | none => rfl
  | some q =>
    obtain ⟨n, enc⟩ := q
    obtain ⟨pre, post, rfl, ho, _⟩ := prePick_some.1 hp
    exact absurd ho (h enc (by simp) n)

/-- no precompressed form of `p` is to be sent -/
def NoForm (e : Fs) (f : FileSrv) (accept : Option Text) (p : Text) : Prop :=
  ∀ a, accept = some a → ∀ x ∈ f.precompressed, ∀ m, ¬ Offers e a p x m

theorem byFile_plain {e : Fs} {f : FileSrv} {accept : Option Text} {p : Text} (h : NoForm e f accept p) :
    byFile e f accept p = if e.ex p then .file p none none else .refused := by
  have : accept.bind (fun a => prePick e a p f.precompressed) = none := by
    cases accept with
    | none => rfl
    | some a => exact prePick_none (h a rfl)
  unfold byFile
  rw [this]

/-- **C97** (files) A request for the path `h` below the prefix is answered with exactly the file `h` below the root
    directory if there is one, and refused if there is none. -/
theorem C97_file (e : Fs) (f : FileSrv) (r path h : Text) (accept : Option Text) (hroot : f.root = some r) (hr : r ≠ [])
    (hn : Names e f path h) (hs : Shown e f r path h) (hd : e.isDir (r ++ h) = false) (hp : NoForm e f accept (r ++ h)) :
    dealRequest e f path accept = if e.ex (r ++ h) then .file (r ++ h) none none else .refused := by
  have hw : withIndex e f (r ++ h) = r ++ h := by unfold withIndex; rw [hd]; rfl
  rw [dealRequest_names accept hroot hr hn hs, hw, hd]
  exact byFile_plain hp

/-- **C97** (names) The path of a file in a directory, as C97 uses it: for a relative name, the directory's text and the name with
    one slash between them, which the directory's text may already end in; an absolute name is the path itself. -/
theorem C97_joined (d i : Text) :
    (∀ j, i = '/' :: j → joinPath d i = i) ∧
    ((∀ j, i ≠ '/' :: j) → d ≠ [] → ∃ e, (e = d ∨ e = d ++ ['/']) ∧ joinPath d i = e ++ i ∧ (∃ b, e = b ++ ['/']) ∧
      (e = d ↔ ∃ b, d = b ++ ['/'])) := by
  unfold joinPath
  constructor
  · rintro j rfl
    exact if_pos rfl
  · intro hi hd
    have h1 : i.head? ≠ some '/' := by
      cases i with
      | nil => simp
      | cons c j => intro h; injection h with h; subst h; exact hi j rfl
    rw [if_neg h1]
    rcases List.eq_nil_or_concat d with rfl | ⟨b, c, rfl⟩
    · exact absurd rfl hd
    · by_cases hc : c = '/'
      · subst hc
        exact ⟨b ++ ['/'], .inl (by simp), by simp, ⟨b, rfl⟩, by simp⟩
      · refine ⟨b ++ [c] ++ ['/'], .inr (by simp), ?_, ⟨_, rfl⟩, ?_⟩
        · rw [if_neg (by simp [hc])]; simp
        · constructor
          · intro h; simp at h
          · rintro ⟨b', h⟩
            have := (List.append_inj' (by simpa using h : b ++ [c] = b' ++ ['/']) rfl).2
            simp at this; exact absurd this hc

/-- **C97** (index files) A request for a directory is answered with the first of the configured index files that it
    contains. -/
theorem C97_index (e : Fs) (f : FileSrv) (r path h : Text) (accept : Option Text) (hroot : f.root = some r) (hr : r ≠ [])
    (hn : Names e f path h) (hs : Shown e f r path h) (hd : e.isDir (r ++ h) = true) (pre post : List Text) (i : Text)
    (hi : f.index = pre ++ i :: post) (hpre : ∀ j ∈ pre, e.ex (joinPath (r ++ h) j) = false)
    (hex : e.ex (joinPath (r ++ h) i) = true) (hnd : e.isDir (joinPath (r ++ h) i) = false)
    (hp : NoForm e f accept (joinPath (r ++ h) i)) :
    dealRequest e f path accept = .file (joinPath (r ++ h) i) none none := by
  have hw : withIndex e f (r ++ h) = joinPath (r ++ h) i := by
    unfold withIndex
    have hf : f.index.find? (fun i => e.ex (joinPath (r ++ h) i)) = some i := by
      rw [hi, List.find?_append, List.find?_eq_none.2 (fun j hj => by simp [hpre j hj])]
      simp [hex]
    rw [hd, hf]; rfl
  rw [dealRequest_names accept hroot hr hn hs, hw, hnd]
  simp only [Bool.false_eq_true, if_false]
  rw [byFile_plain hp, hex]; rfl

/-- **C97** (directories) A directory without index file is listed if that is switched on, with all its entries that are
    not hidden and nothing else, and refused otherwise. -/
theorem C97_directory (e : Fs) (f : FileSrv) (r path h : Text) (accept : Option Text) (hroot : f.root = some r)
    (hr : r ≠ []) (hn : Names e f path h) (hs : Shown e f r path h) (hd : e.isDir (r ++ h) = true)
    (hno : ∀ i ∈ f.index, e.ex (joinPath (r ++ h) i) = false) :
    (f.browse = false → dealRequest e f path accept = .refused) ∧
    (f.browse = true → ∃ shown, dealRequest e f path accept = .listing (r ++ h) shown f.rate ∧
      ∀ p, p ∈ shown ↔ ∃ x ∈ e.entries (r ++ h), p = joinPath (r ++ h) x ∧ ∀ y ∈ f.hide, ¬ y <:+: p) := by
  have hw : withIndex e f (r ++ h) = r ++ h := by
    unfold withIndex
    rw [List.find?_eq_none.2 (fun j hj => by simp [hno j hj])]
    simp
  rw [dealRequest_names accept hroot hr hn hs, hw, hd]
  simp only [if_true]
  constructor
  · intro hb; simp [hb]
  · intro hb
    refine ⟨_, by simp [hb]; rfl, ?_⟩
    intro p
    simp only [List.mem_filter, List.mem_map, Bool.not_eq_true']
    constructor
    · rintro ⟨⟨x, hx, rfl⟩, hh⟩
      refine ⟨x, hx, rfl, ?_⟩
      intro y hy hc
      have : isHide f (joinPath (r ++ h) x) = true := by
        unfold isHide
        rw [List.any_eq_true]
        exact ⟨y, hy, (containsText_iff _ _).2 hc⟩
      rw [this] at hh; cases hh
    · rintro ⟨x, hx, rfl, hh⟩
      exact ⟨⟨x, hx, rfl⟩, isHide_false hh⟩

/-- **C98**, partial: a precompressed form is sent instead of a file exactly if it is the first configured one that occurs in
    the client's list of encodings and exists, with the ending of its encoding and labelled with it. Missing: that an
    encoding occurs in the list does not mean that the client accepts it, see `C98_refused_encoding_fails`. -/
theorem C98_encoding_partial (e : Fs) (f : FileSrv) (r path h a : Text) (hroot : f.root = some r) (hr : r ≠ [])
    (hn : Names e f path h) (hs : Shown e f r path h) (hd : e.isDir (r ++ h) = false) (enc n : Text) :
    dealRequest e f path (some a) = .file n (some enc) none ↔
      ∃ pre post, f.precompressed = pre ++ enc :: post ∧ Offers e a (r ++ h) enc n ∧
        ∀ x ∈ pre, ∀ m, ¬ Offers e a (r ++ h) x m := by
  have hw : withIndex e f (r ++ h) = r ++ h := by unfold withIndex; rw [hd]; rfl
  rw [dealRequest_names (some a) hroot hr hn hs, hw, hd, ← prePick_some]
  simp only [Bool.false_eq_true, if_false, byFile, Option.bind]
  cases hp : prePick e a (r ++ h) f.precompressed with
  | none =>
    simp only
    constructor
    · intro hc; split at hc <;> cases hc
    · intro hc; cases hc
  | some q =>
    obtain ⟨n', enc'⟩ := q
    simp

/-- **C98** (nobody asked) A client that sends no list of encodings never gets a precompressed form. -/
theorem C98_not_asked (e : Fs) (f : FileSrv) (path p enc : Text) (rate : Option Text) :
    dealRequest e f path none ≠ .file p (some enc) rate := by
  unfold dealRequest byFile
  intro h
  split at h
  · cases h
  · split at h
    · cases h
    · split at h
      · cases h
      · simp only at h
        split at h
        · cases h
        · split at h
          · split at h <;> cases h
          · split at h
            · cases h
            · simp only [Option.bind] at h
              split at h <;> cases h

/-- **C98** fails: a client that refuses gzip in the usual way ("gzip;q=0", whatever is listed before and after) gets the
    gzip form of every file that has one. -/
theorem C98_refused_encoding_fails (e : Fs) (f : FileSrv) (r path h before after : Text) (hroot : f.root = some r)
    (hr : r ≠ []) (hn : Names e f path h) (hs : Shown e f r path h) (hd : e.isDir (r ++ h) = false) (post : List Text)
    (hpre : f.precompressed = "gzip".toList :: post) (hex : e.ex (r ++ h ++ ".gz".toList) = true) :
    dealRequest e f path (some (before ++ "gzip;q=0".toList ++ after))
      = .file (r ++ h ++ ".gz".toList) (some "gzip".toList) none := by
  rw [C98_encoding_partial e f r path h _ hroot hr hn hs hd]
  refine ⟨[], post, hpre, ⟨?_, .inl ⟨rfl, rfl⟩, hex⟩, by simp⟩
  exact ⟨before, ";q=0".toList ++ after, by simp⟩

/-! concrete cases -/

/-- the directory `/s` with the directory `/s/d`, which has the files `x`, `.y`, and `x.gz`, served under `/a` -/
def moreFs : Fs where
  cwd := ['/']
  isDir p := p = "/s/d".toList
  ex p := p = "/s/d/x".toList ∨ p = "/s/d/.y".toList ∨ p = "/s/d/x.gz".toList
  entries _ := ["x".toList, ".y".toList, "x.gz".toList]
  decode p := some (p.filter (· ≠ '%'))

def moreSrv : FileSrv := { demoSrv with hide := ["/.".toList], precompressed := ["br".toList, "gzip".toList] }

example : Names moreFs moreSrv "/a/d/x".toList "/d/x".toList ∧ Names moreFs moreSrv "/a/d%/x".toList "/d/x".toList ∧
    Shown moreFs moreSrv "/s".toList "/a/d/x".toList "/d/x".toList := by
  refine ⟨⟨rfl, .inl ⟨by decide, rfl⟩⟩, ⟨rfl, .inr ⟨by decide, ⟨"/d%/x".toList, rfl⟩, by decide⟩⟩, ?_, .inl rfl⟩
  intro x hx
  simp only [moreSrv, List.mem_singleton] at hx
  subst hx
  rw [← containsText_iff, ← containsText_iff]
  decide +kernel

example : dealRequest moreFs moreSrv "/a/d/x".toList none = .file "/s/d/x".toList none none ∧
    dealRequest moreFs moreSrv "/a/d/z".toList none = .refused ∧
    dealRequest moreFs moreSrv "/a/d".toList none
      = .listing "/s/d".toList ["/s/d/x".toList, "/s/d/x.gz".toList] none ∧
    dealRequest moreFs { moreSrv with index := ["z".toList, "x".toList] } "/a/d".toList none
      = .file "/s/d/x".toList none none ∧
    dealRequest moreFs moreSrv "/a/d/x".toList (some "deflate, gzip".toList)
      = .file "/s/d/x.gz".toList (some "gzip".toList) none ∧
    dealRequest moreFs moreSrv "/a/d/x".toList (some "br;q=1, gzip;q=0".toList)
      = .file "/s/d/x.gz".toList (some "gzip".toList) none := by decide +kernel

/-- the client has no good copy, and its If-Range header, if any, is the current ETag -/
def WantsRange (env : CondEnv) (c : Cond) (m : Meta) : Prop :=
  c.ifNoneMatch ≠ some (etag m) ∧
  (∀ v n, c.ifModifiedSince = some v → m.mtime = some n → env.lastMod v ≠ n) ∧
  (c.ifRange = none ∨ c.ifRange = some (etag m)) ∧ (c.acceptRanges = none ∨ c.acceptRanges = some "bytes".toList)

theorem fileResponse_range (env : CondEnv) (c : Cond) (m : Meta) (h : WantsRange env c m) :
    fileResponse env c m = (applyRange env c m ⟨200, .whole, none⟩).map (applyHead c) := by
  obtain ⟨h1, h2, h3, h4⟩ := h
  have hn : notModified env c m = false := by
    unfold notModified
    rw [Bool.or_eq_false_iff]
    constructor
    · cases hi : c.ifNoneMatch with
      | none => rfl
      | some v => simp only [beq_eq_false_iff_ne]; rintro rfl; exact h1 hi
    · cases hi : c.ifModifiedSince with
      | none => rfl
      | some v =>
        cases hm : m.mtime with
        | none => rfl
        | some n => simpa using h2 v n hi hm
  have hr : ifRangeOk env c m = true := by
    unfold ifRangeOk
    rcases h3 with h3 | h3 <;> simp [h3]
  unfold fileResponse afterFile
  have h4' : c.acceptRanges = none ∨ c.acceptRanges = some ['b', 'y', 't', 'e', 's'] := h4
  rw [if_neg (by simp [hn]), if_pos h4', if_pos hr]

/-- **C50** (the answer) A range that is read as bytes `s` to `e` is answered with 206, labelled with it, and with what the
    body of the file gives for it (nothing for HEAD); one that cannot be read with 416 and no content. -/
theorem C50_answer_partial (env : CondEnv) (c : Cond) (m : Meta) (h : WantsRange env c m) (t : Text)
    (ht : c.range = some t) :
    (∀ s e b, calcRange t m.len = some (s, e) → env.seek .whole s e = some b →
      fileResponse env c m = some ⟨206, if c.head then .empty else b, some (some (s, e))⟩) ∧
    (calcRange t m.len = none → fileResponse env c m = some ⟨416, .empty, some none⟩) := by
  rw [fileResponse_range env c m h]
  unfold applyRange
  rw [ht]
  refine ⟨?_, ?_⟩
  · intro s e b hc hb
    simp only [hc, hb, applyHead, Option.map_some]
    cases c.head <;> rfl
  · intro hc
    simp only [hc, applyHead, Option.map_some]
    cases c.head <;> rfl

/-- **C50** (no range) Without a range the whole file is sent with 200, to HEAD without content. -/
theorem C50_whole (env : CondEnv) (c : Cond) (m : Meta) (h : WantsRange env c m) (ht : c.range = none) :
    fileResponse env c m = some ⟨200, if c.head then .empty else .whole, none⟩ := by
  rw [fileResponse_range env c m h]
  unfold applyRange
  rw [ht]
  simp only [applyHead, Option.map_some]
  cases c.head <;> rfl

example : let env : CondEnv := ⟨fun _ => 7, fun _ s e => some (.part s e)⟩
    let c : Cond := ⟨some ['x'], none, none, some "bytes=2-5".toList, none, false⟩
    WantsRange env c ⟨10, some 3⟩ ∧ fileResponse env c ⟨10, some 3⟩ = some ⟨206, .part 2 5, some (some (2, 5))⟩ ∧
    fileResponse env { c with range := some "bytes=5-2".toList } ⟨10, some 3⟩ = some ⟨416, .empty, some none⟩ := by
  refine ⟨⟨by decide +kernel, by simp, .inl rfl, .inl rfl⟩, by decide +kernel, by decide +kernel⟩

/-- **C50** (other units) A request whose Accept-Ranges header names another unit gets the whole file. -/
theorem C50_other_unit (env : CondEnv) (c : Cond) (m : Meta) (h1 : c.ifNoneMatch = none) (h2 : c.ifModifiedSince = none)
    (v : Text) (hv : c.acceptRanges = some v) (hb : v ≠ "bytes".toList) :
    fileResponse env c m = some ⟨200, if c.head then .empty else .whole, none⟩ := by
  unfold fileResponse afterFile
  rw [if_neg (by simp [notModified, h1, h2]), if_neg]
  · unfold applyHead; cases c.head <;> rfl
  · rw [hv]; rintro (h | h)
    · cases h
    · exact hb (Option.some.inj h)

example : fileResponse ⟨fun _ => 7, fun _ s e => some (.part s e)⟩
    ⟨none, none, none, some "bytes=2-5".toList, some "none".toList, false⟩ ⟨10, some 3⟩ = some ⟨200, .whole, none⟩ := by
  decide +kernel

end Wm.Files
