import Verif.Model.FileLines
import Verif.Props.FilesMore
/-! Properties C162 (configured header lines), C163 (asking again), C164 (content encoding), C165 (media types), C166 (HEAD),
and more of C72. -/
namespace Wm.Files
open Wm

/-! ### specification -/

/-- the values of the lines with the name `n` -/
def values (hs : Lines) (n : Name) : List Text := (hs.filter (fun l => l.1 = n)).map (·.2)

/-- the file whose content (or part of it, or nothing in case of 304) is sent -/
def Answer.file? (a : Answer) : Option Text := match a.source with
  | .file q _ => some q
  | _ => none

/-- `q` is a file `stem.ext` in some directory -/
def Ends (q ext : Text) : Prop :=
  ∃ d stem, q = d ++ '/' :: (stem ++ '.' :: ext) ∧ stem ≠ [] ∧ ext ≠ [] ∧ '/' ∉ stem ∧ '/' ∉ ext ∧ '.' ∉ ext

/-! ### header lines -/

theorem values_append (a b : Lines) (n : Name) : values (a ++ b) n = values a n ++ values b n := by
  simp [values]

theorem values_insert_self (hs : Lines) (n : Name) (v : Text) : values (hs.insert n v) n = [v] := by
  unfold Lines.insert
  rw [values_append]
  have : values (hs.filter (fun l => l.1 ≠ n)) n = [] := by
    unfold values
    rw [List.filter_filter]
    simp
  rw [this]
  simp [values]

theorem values_insert_ne (hs : Lines) {n k : Name} (v : Text) (h : k ≠ n) : values (hs.insert k v) n = values hs n := by
  unfold Lines.insert
  rw [values_append]
  have h1 : values [(k, v)] n = [] := by simp [values, h]
  rw [h1, List.append_nil]
  unfold values
  rw [List.filter_filter]
  congr 1
  apply List.filter_congr
  intro l _
  by_cases hl : l.1 = n
  · simp [hl, Ne.symm h]
  · simp [hl]

/-- lines that only the settings set -/
theorem settingLines_values (env : HEnv) (x : Extra) (hs : Lines) (n : Name) :
    values (settingLines env x hs) n =
      if n = .date then [env.now]
      else if n = .contentEncoding then (if x.disableCompress then [[]] else values hs n)
      else if n = .allowOrigin then (if x.cors then [['*']] else values hs n)
      else if n = .allowHeaders then
        (if x.cors then ["Origin, X-Requested-With, Content-Type, Accept, Range".toList] else values hs n)
      else if n = .cacheControl then (match x.cacheTime with
        | some d => ["max-age=".toList ++ showNat (d / 1000000000)]
        | none => values hs n)
      else values hs n := by
  unfold settingLines
  generalize "Origin, X-Requested-With, Content-Type, Accept, Range".toList = o
  generalize "max-age=".toList = ma
  rcases x with ⟨ct, cors, dc, st, p4⟩
  cases ct <;> cases cors <;> cases dc <;> cases n <;>
    simp [values_insert_self, values_insert_ne]

theorem metaLines_values (env : HEnv) (m : Meta) (hs : Lines) (n : Name) :
    values (metaLines env m hs) n =
      if n = .etag then [etag m]
      else if n = .lastModified then (match m.mtime.bind env.dateText with
        | some t => [t]
        | none => values hs n)
      else values hs n := by
  unfold metaLines
  cases m.mtime.bind env.dateText <;> cases n <;> simp [values_insert_self, values_insert_ne]

theorem rangeLines_values (env : HEnv) (c : Cond) (m : Meta) (r : HResp) (n : Name) (hn : n ≠ .contentRange) :
    values (rangeLines env c m r).1.lines n = values r.lines n := by
  unfold rangeLines
  cases c.range with
  | none => rfl
  | some t =>
    dsimp only
    cases calcRange t m.len with
    | none => exact values_insert_ne _ _ (Ne.symm hn)
    | some p =>
      dsimp only
      cases env.seek r.body p.1 p.2 with
      | none => rfl
      | some b => exact values_insert_ne _ _ (Ne.symm hn)

theorem headLines_values (c : Cond) (m : Meta) (r : HResp) (n : Name) (h1 : n ≠ .acceptRanges) (h2 : n ≠ .contentLength) :
    values (headLines c m r).lines n = values r.lines n := by
  unfold headLines
  split
  · rw [values_insert_ne _ _ (Ne.symm h2), values_insert_ne _ _ (Ne.symm h1)]
  · rfl

/-- the lines set by settings and file that nothing later changes -/
theorem afterLines_values (env : HEnv) (x : Extra) (c : Cond) (m : Meta) (r : HResp) (n : Name) (h1 : n ≠ .acceptRanges)
    (h2 : n ≠ .contentLength) (h3 : n ≠ .contentRange) :
    values (afterLines env x c (some m) r).1.lines n = values (metaLines env m (settingLines env x r.lines)) n := by
  unfold afterLines
  dsimp only
  split
  · split
    · split
      · rename_i r' hr
        rw [headLines_values c m r' n h1 h2]
        have := rangeLines_values env c m { r with lines := metaLines env m (settingLines env x r.lines) } n h3
        rw [hr] at this
        exact this
      · rename_i r' hr
        have := rangeLines_values env c m { r with lines := metaLines env m (settingLines env x r.lines) } n h3
        rw [hr] at this
        exact this
    · rfl
  · exact headLines_values c m _ n h1 h2

theorem headLines_core (c : Cond) (m : Meta) (r : HResp) (cr : Option (Option (Nat × Nat))) :
    some ((headLines c m r).status, (headLines c m r).body)
      = Option.map (fun r => (r.status, r.body)) (some (applyHead c ⟨r.status, r.body, cr⟩)) := by
  unfold headLines applyHead
  cases c.head <;> rfl

theorem rangeLines_core (env : HEnv) (c : Cond) (m : Meta) (r : HResp) (cr : Option (Option (Nat × Nat))) :
    match rangeLines env c m r with
    | (r', true) => ∃ cr', applyRange env.toCondEnv c m ⟨r.status, r.body, cr⟩ = some ⟨r'.status, r'.body, cr'⟩
    | (_, false) => applyRange env.toCondEnv c m ⟨r.status, r.body, cr⟩ = none := by
  unfold rangeLines applyRange
  dsimp only
  cases c.range with
  | none => exact ⟨cr, rfl⟩
  | some t =>
    dsimp only
    cases calcRange t m.len with
    | none => exact ⟨_, rfl⟩
    | some p =>
      dsimp only
      cases env.seek r.body p.1 p.2 with
      | none => rfl
      | some b => exact ⟨_, rfl⟩

/-- status and body are those of `afterFile` -/
theorem afterLines_core (env : HEnv) (x : Extra) (c : Cond) (m : Meta) (r : HResp) (cr : Option (Option (Nat × Nat))) :
    (match afterLines env x c (some m) r with
      | (r', true) => some (r'.status, r'.body)
      | (_, false) => none) = (afterFile env.toCondEnv c m ⟨r.status, r.body, cr⟩).map (fun r => (r.status, r.body)) := by
  unfold afterLines afterFile
  dsimp only
  by_cases h1 : c.acceptRanges = none ∨ c.acceptRanges = some ['b', 'y', 't', 'e', 's']
  · rw [if_pos h1, if_pos h1]
    by_cases h2 : ifRangeOk env.toCondEnv c m = true
    · rw [if_pos h2, if_pos h2]
      have hr := rangeLines_core env c m { r with lines := metaLines env m (settingLines env x r.lines) } cr
      generalize rangeLines env c m { r with lines := metaLines env m (settingLines env x r.lines) } = z at hr ⊢
      obtain ⟨r', b⟩ := z
      cases b with
      | true =>
        obtain ⟨cr', hr⟩ := hr
        dsimp only at hr ⊢
        rw [hr]
        exact headLines_core c m r' cr'
      | false =>
        dsimp only at hr ⊢
        rw [hr]
        rfl
    · rw [if_neg h2, if_neg h2]
      rfl
  · rw [if_neg h1, if_neg h1]
    exact headLines_core c m { r with lines := metaLines env m (settingLines env x r.lines) } cr

theorem afterLines_err (env : HEnv) (x : Extra) (c : Cond) (m : Meta) (r r' : HResp)
    (h : afterLines env x c (some m) r = (r', false)) : r'.status = r.status ∧ r'.body = r.body := by
  unfold afterLines at h
  dsimp only at h
  split at h
  · split at h
    · split at h
      · cases h
      · rename_i r'' hr
        cases h
        unfold rangeLines at hr
        dsimp only at hr
        split at hr
        · cases hr
        · split at hr
          · split at hr
            · cases hr
            · cases hr; exact ⟨rfl, rfl⟩
          · cases hr
    · cases h
  · cases h

/-- status and body of a response for a file are those of `fileResponse` (C50, C71, C72) -/
theorem fileLines_core (env : HEnv) (f : FileSrv) (x : Extra) (c : Cond) (m : Meta) (base : Text) (enc : Option Text) :
    (fileLines env f x c m base enc).map (fun r => (r.status, r.body))
      = (fileResponse env.toCondEnv c m).map (fun r => (r.status, r.body)) := by
  unfold fileLines fileResponse
  split
  · have h := afterLines_core env x c m ⟨304, .empty, []⟩ none
    cases hq : afterLines env x c (some m) ⟨304, .empty, []⟩ with
    | mk r b =>
      rw [hq] at h
      cases b with
      | true =>
        dsimp only at h
        cases ha : afterFile env.toCondEnv c m ⟨304, .empty, none⟩ with
        | none => rw [ha] at h; cases h
        | some y => rw [ha] at h; simpa using h
      | false =>
        dsimp only at h
        obtain ⟨h1, h2⟩ := afterLines_err env x c m _ r hq
        cases ha : afterFile env.toCondEnv c m ⟨304, .empty, none⟩ with
        | some y => rw [ha] at h; cases h
        | none => simp [h1, h2]
  · have h := afterLines_core env x c m ⟨200, .whole, contentLines f base enc⟩ none
    rw [← h]
    cases afterLines env x c (some m) ⟨200, .whole, contentLines f base enc⟩ with
    | mk r b => cases b <;> rfl

theorem contentLines_values (f : FileSrv) (base : Text) (enc : Option Text) (n : Name) :
    values (contentLines f base enc) n =
      if n = .contentEncoding then enc.toList
      else if n = .contentType then [mimetype builtin f ((extension base).getD []) ++ "; charset=utf-8".toList]
      else if n = .transferEncoding then ["chunked".toList]
      else [] := by
  unfold contentLines values
  generalize mimetype builtin f ((extension base).getD []) ++ "; charset=utf-8".toList = a
  generalize "chunked".toList = b
  cases enc <;> cases n <;> simp

/-- the lines of a response for a file that do not depend on a range or on HEAD -/
theorem fileLines_values {env : HEnv} {f : FileSrv} {x : Extra} {c : Cond} {m : Meta} {base : Text} {enc : Option Text}
    {r : HResp} (h : fileLines env f x c m base enc = some r) (n : Name) (h1 : n ≠ .acceptRanges) (h2 : n ≠ .contentLength)
    (h3 : n ≠ .contentRange) :
    values r.lines n = values (metaLines env m (settingLines env x
      (if notModified env.toCondEnv c m then [] else contentLines f base enc))) n := by
  unfold fileLines at h
  split at h
  · rename_i hm
    cases h
    rw [if_pos hm]
    exact afterLines_values env x c m _ n h1 h2 h3
  · rename_i hm
    rw [if_neg hm]
    have := afterLines_values env x c m ⟨200, .whole, contentLines f base enc⟩ n h1 h2 h3
    split at h
    · rename_i r' hr
      cases h
      rw [hr] at this
      exact this
    · cases h

/-- what an answer with a file comes from -/
theorem answer_file {e : Fs} {f : FileSrv} {x : Extra} {env : HEnv} {info : Text → Meta} {bytes : Text → Nat} {path : Text}
    {accept : Option Text} {c : Cond} {a : Answer} {q : Text} (h : answer e f x env info bytes path accept c = some a)
    (hq : a.file? = some q) :
    ∃ base enc r, fileLines env f x c (info q) base enc = some r ∧ a = ⟨r.status, .file q r.body, r.lines⟩ ∧
      ∀ env' info' c' r', fileLines env' f x c' (info' q) base enc = some r' →
        answer e f x env' info' bytes path accept c' = some ⟨r'.status, .file q r'.body, r'.lines⟩ := by
  unfold answer at h
  cases hd : dealRequest e f path accept with
  | robots => rw [hd] at h; cases h; cases hq
  | panic => rw [hd] at h; cases h
  | listing dir s rt => rw [hd] at h; cases h; cases hq
  | file p enc rt =>
    rw [hd] at h
    dsimp only at h
    cases hf : fileLines env f x c (info p) (baseOf p enc) enc with
    | none => rw [hf] at h; cases h
    | some r =>
      rw [hf] at h
      cases h
      cases hq
      refine ⟨_, _, r, hf, rfl, ?_⟩
      intro env' info' c' r' hr'
      unfold answer
      rw [hd]
      dsimp only
      rw [hr']
      rfl
  | refused =>
    rw [hd] at h
    cases h
    unfold refusalLines at hq ⊢
    cases h4 : x.status == 404 with
    | false => rw [h4] at hq; cases hq
    | true =>
      rw [h4] at hq
      cases hp : x.path404 with
      | none => rw [hp] at hq; cases hq
      | some p =>
        rw [hp] at hq
        dsimp only at hq ⊢
        cases hb : byFile e f accept p with
        | robots => rw [hb] at hq; cases hq
        | panic => rw [hb] at hq; cases hq
        | listing _ _ _ => rw [hb] at hq; cases hq
        | refused => rw [hb] at hq; cases hq
        | file p2 enc rt =>
          rw [hb] at hq
          dsimp only at hq ⊢
          cases hf : fileLines env f x c (info p2) (baseOf p2 enc) enc with
          | none => rw [hf] at hq; cases hq
          | some r =>
            rw [hf] at hq
            dsimp only at hq ⊢
            cases hq
            refine ⟨_, _, r, hf, rfl, ?_⟩
            intro env' info' c' r' hr'
            unfold answer refusalLines
            rw [hd, h4, hp]
            dsimp only
            rw [hb]
            dsimp only
            rw [hr']

/-! ### C162: the configured lines -/

/-- the lines for the settings, and no other ones -/
def Configured (x : Extra) (hs : Lines) : Prop :=
  values hs .cacheControl = (match x.cacheTime with
    | some d => ["max-age=".toList ++ showNat (d / 1000000000)]
    | none => []) ∧
  values hs .allowOrigin = (if x.cors then [['*']] else []) ∧
  values hs .allowHeaders = (if x.cors then ["Origin, X-Requested-With, Content-Type, Accept, Range".toList] else [])

/-- **C162**, partial: every answer with a file (also a part of it, 304, the page for what is not there, and the robots text)
    carries the configured time to keep it, in whole seconds, and the lines for other origins if they are switched on; and none
    of them otherwise. Missing: directory pages and messages, see the next theorem. -/
theorem C162_files_partial (e : Fs) (f : FileSrv) (x : Extra) (env : HEnv) (info : Text → Meta) (bytes : Text → Nat)
    (path : Text) (accept : Option Text) (c : Cond) (a : Answer) (h : answer e f x env info bytes path accept c = some a)
    (hs : a.file? ≠ none ∨ a.source = .robots) : Configured x a.lines := by
  have key : ∀ hs : Lines, values hs .cacheControl = [] → values hs .allowOrigin = [] → values hs .allowHeaders = [] →
      Configured x (settingLines env x hs) := by
    intro hs h1 h2 h3
    refine ⟨?_, ?_, ?_⟩
    · rw [settingLines_values]
      simp only [reduceCtorEq, if_false, if_true, h1]
    · rw [settingLines_values]
      simp only [reduceCtorEq, if_false, if_true, h2]
    · rw [settingLines_values]
      simp only [reduceCtorEq, if_false, if_true, h3]
  rcases hs with hs | hs
  · obtain ⟨q, hq⟩ := Option.ne_none_iff_exists'.1 hs
    obtain ⟨base, enc, r, hr, rfl, _⟩ := answer_file h hq
    have hv := fileLines_values hr
    have hk := key (if notModified env.toCondEnv c (info q) then [] else contentLines f base enc)
      (by split; rfl; rw [contentLines_values]; rfl) (by split; rfl; rw [contentLines_values]; rfl)
      (by split; rfl; rw [contentLines_values]; rfl)
    obtain ⟨k1, k2, k3⟩ := hk
    refine ⟨?_, ?_, ?_⟩
    · rw [hv _ (by decide) (by decide) (by decide), metaLines_values]; exact k1
    · rw [hv _ (by decide) (by decide) (by decide), metaLines_values]; exact k2
    · rw [hv _ (by decide) (by decide) (by decide), metaLines_values]; exact k3
  · unfold answer at h
    split at h
    · cases h
      exact key _ rfl rfl rfl
    · cases h
    · cases h; cases hs
    · rename_i q enc rt hd
      cases hf : fileLines env f x c (info q) (baseOf q enc) enc with
      | none => rw [hf] at h; cases h
      | some r => rw [hf] at h; cases h; cases hs
    · cases h
      unfold refusalLines at hs
      repeat' split at hs
      all_goals cases hs

/-- **C162** fails for directory pages and messages: they never carry the configured time or the lines for other origins. -/
theorem C162_pages_fails (e : Fs) (f : FileSrv) (x : Extra) (env : HEnv) (info : Text → Meta) (bytes : Text → Nat)
    (path : Text) (accept : Option Text) (c : Cond) (a : Answer) (h : answer e f x env info bytes path accept c = some a)
    (hs : a.source = .message ∨ ∃ d, a.source = .page d) :
    values a.lines .cacheControl = [] ∧ values a.lines .allowOrigin = [] ∧ values a.lines .allowHeaders = [] := by
  unfold answer at h
  split at h
  · cases h; rcases hs with hs | ⟨_, hs⟩ <;> cases hs
  · cases h
  · cases h
    dsimp only
    split <;> exact ⟨rfl, rfl, rfl⟩
  · rename_i q enc rt hd
    cases hf : fileLines env f x c (info q) (baseOf q enc) enc with
    | none => rw [hf] at h; cases h
    | some r => rw [hf] at h; cases h; rcases hs with hs | ⟨_, hs⟩ <;> cases hs
  · cases h
    revert hs
    unfold refusalLines
    repeat' split
    all_goals first
      | exact fun _ => ⟨rfl, rfl, rfl⟩
      | (intro hs; rcases hs with hs | ⟨_, hs⟩ <;> cases hs)

/-! ### C163: asking again -/

/-- **C163** A client that asks again for a file with the ETag it got — whatever settings of the file server, ways of answering
    and headers of the first request — is told 304 without content as long as length and second of the last change of the file
    are the same, and gets it anew once one of them is different. (Without a range and without a date in the second
    request.) -/
theorem C163_again (e : Fs) (f : FileSrv) (x : Extra) (env env' : HEnv) (info info' : Text → Meta) (bytes : Text → Nat)
    (path : Text) (accept : Option Text) (c c' : Cond) (a : Answer) (q : Text)
    (h : answer e f x env info bytes path accept c = some a) (hq : a.file? = some q) :
    ∃ t, values a.lines .etag = [t] ∧
      (c'.ifNoneMatch = some t → c'.range = none → c'.ifModifiedSince = none →
        ∃ a', answer e f x env' info' bytes path accept c' = some a' ∧ a'.file? = some q ∧
          (((info' q).len = (info q).len ∧ (info' q).mtime.getD 0 = (info q).mtime.getD 0) →
            a'.status = 304 ∧ a'.source = .file q .empty) ∧
          (¬ ((info' q).len = (info q).len ∧ (info' q).mtime.getD 0 = (info q).mtime.getD 0) → a'.status = 200)) := by
  obtain ⟨base, enc, r, hr, rfl, hall⟩ := answer_file h hq
  refine ⟨etag (info q), ?_, ?_⟩
  · rw [fileLines_values hr _ (by decide) (by decide) (by decide), metaLines_values]
    rfl
  · intro hn hrg hms
    have hcore := fileLines_core env' f x c' (info' q) base enc
    by_cases hsame : (info' q).len = (info q).len ∧ (info' q).mtime.getD 0 = (info q).mtime.getD 0
    · have he : etag (info q) = etag (info' q) := (C73_etag _ _).2 ⟨hsame.1.symm, hsame.2.symm⟩
      have := C71_not_modified_partial env'.toCondEnv c' (info' q) (Or.inl (he ▸ hn)) hrg
      rw [this] at hcore
      cases hf : fileLines env' f x c' (info' q) base enc with
      | none => rw [hf] at hcore; cases hcore
      | some r' =>
        rw [hf] at hcore
        simp only [Option.map_some, Option.some.injEq, Prod.mk.injEq] at hcore
        refine ⟨_, hall env' info' c' r' hf, rfl, ?_, ?_⟩
        · intro _
          exact ⟨hcore.1, by rw [hcore.2]⟩
        · intro hne; exact absurd hsame hne
    · have he : etag (info q) ≠ etag (info' q) := by
        intro he
        have := (C73_etag _ _).1 he
        exact hsame ⟨this.1.symm, this.2.symm⟩
      have hnm : notModified env'.toCondEnv c' (info' q) = false := by
        unfold notModified
        rw [hn, hms]
        simp [he]
      have h200 : ∃ y, fileResponse env'.toCondEnv c' (info' q) = some y ∧ y.status = 200 := by
        unfold fileResponse
        rw [hnm]
        simp only [Bool.false_eq_true, if_false]
        unfold afterFile applyRange
        rw [hrg]
        split
        · split
          · refine ⟨_, rfl, ?_⟩
            unfold applyHead
            split <;> rfl
          · exact ⟨_, rfl, rfl⟩
        · refine ⟨_, rfl, ?_⟩
          unfold applyHead
          split <;> rfl
      obtain ⟨y, hy, hys⟩ := h200
      rw [hy] at hcore
      cases hf : fileLines env' f x c' (info' q) base enc with
      | none => rw [hf] at hcore; cases hcore
      | some r' =>
        rw [hf] at hcore
        simp only [Option.map_some, Option.some.injEq, Prod.mk.injEq] at hcore
        refine ⟨_, hall env' info' c' r' hf, rfl, ?_, ?_⟩
        · intro hs; exact absurd hs hsame
        · intro _
          exact hcore.1.trans hys

/-! ### C164: content encoding -/

/-- **C164**, partial: unless compression is switched off, the content of a file is labelled as what is sent: with the encoding of
    the precompressed form if that is sent, and with no encoding otherwise. Missing: with compression switched off, see the
    next theorem. -/
theorem C164_label_partial (e : Fs) (f : FileSrv) (x : Extra) (env : HEnv) (info : Text → Meta) (bytes : Text → Nat)
    (path : Text) (accept : Option Text) (c : Cond) (a : Answer) (q : Text) (enc rate : Option Text)
    (h : answer e f x env info bytes path accept c = some a) (hd : dealRequest e f path accept = .file q enc rate)
    (hc : x.disableCompress = false) (h1 : c.ifNoneMatch = none) (h2 : c.ifModifiedSince = none) :
    values a.lines .contentEncoding = enc.toList := by
  unfold answer at h
  rw [hd] at h
  dsimp only at h
  cases hf : fileLines env f x c (info q) (baseOf q enc) enc with
  | none => rw [hf] at h; cases h
  | some r =>
    rw [hf] at h
    cases h
    have hn : notModified env.toCondEnv c (info q) = false := by unfold notModified; rw [h1, h2]; rfl
    show values r.lines _ = _
    rw [fileLines_values hf _ (by decide) (by decide) (by decide), metaLines_values, settingLines_values, hn, hc]
    simp only [reduceCtorEq, if_false, if_true, Bool.false_eq_true]
    rw [contentLines_values]
    rfl

/-- **C164** fails with compression switched off: the precompressed form is sent all the same to a client that accepts it, and
    labelled as not encoded, so that the client takes the compressed bytes for the file. -/
theorem C164_label_fails (e : Fs) (f : FileSrv) (x : Extra) (env : HEnv) (info : Text → Meta) (bytes : Text → Nat)
    (path : Text) (accept : Option Text) (c : Cond) (q enc : Text) (rate : Option Text)
    (hd : dealRequest e f path accept = .file q (some enc) rate) (hc : x.disableCompress = true)
    (h1 : c.ifNoneMatch = none) (h2 : c.ifModifiedSince = none) (h3 : c.range = none) (h4 : c.head = false) :
    ∃ a, answer e f x env info bytes path accept c = some a ∧ a.status = 200 ∧ a.source = .file q .whole ∧
      values a.lines .contentEncoding = [[]] := by
  have hn : notModified env.toCondEnv c (info q) = false := by unfold notModified; rw [h1, h2]; rfl
  have hresp : fileResponse env.toCondEnv c (info q) = some ⟨200, .whole, none⟩ := by
    unfold fileResponse
    rw [hn]
    simp only [Bool.false_eq_true, if_false]
    unfold afterFile applyRange applyHead
    rw [h3, h4]
    simp
  have hcore := fileLines_core env f x c (info q) (baseOf q (some enc)) (some enc)
  rw [hresp] at hcore
  cases hf : fileLines env f x c (info q) (baseOf q (some enc)) (some enc) with
  | none => rw [hf] at hcore; cases hcore
  | some r =>
    rw [hf] at hcore
    simp only [Option.map_some, Option.some.injEq, Prod.mk.injEq] at hcore
    refine ⟨⟨r.status, .file q r.body, r.lines⟩, ?_, hcore.1, ?_, ?_⟩
    · unfold answer
      rw [hd]
      dsimp only
      rw [hf]
      rfl
    · rw [hcore.2]
    · show values r.lines _ = _
      rw [fileLines_values hf _ (by decide) (by decide) (by decide), metaLines_values, settingLines_values, hc]
      rfl

/-! ### C165: media types -/

theorem lastDot_none {t : Text} (h : '.' ∉ t) : lastDot t = none := by
  induction t with
  | nil => rfl
  | cons c r ih =>
    rw [lastDot, ih (fun hm => h (List.mem_cons_of_mem _ hm))]
    simp only
    rw [if_neg]
    rintro rfl
    exact h List.mem_cons_self

theorem lastDot_append (a b : Text) (h : '.' ∉ b) : lastDot (a ++ '.' :: b) = some (a, b) := by
  induction a with
  | nil => rw [List.nil_append, lastDot, lastDot_none h]; rfl
  | cons c r ih => rw [List.cons_append, lastDot, ih]

theorem extension_ends {q ext : Text} (h : Ends q ext) : extension q = some ext := by
  obtain ⟨d, stem, rfl, hs, hx, h1, h2, h3⟩ := h
  have hseg : segs (d ++ '/' :: (stem ++ '.' :: ext)) = segs d ++ [stem ++ '.' :: ext] := by
    rw [segs_append]
    congr 1
    obtain ⟨ss, l, e1, e2⟩ := splitOn_append_tail (· == '/') [] (stem ++ '.' :: ext) (by
      intro c hc
      simp only [beq_eq_false_iff_ne]
      rintro rfl
      rcases List.mem_append.1 hc with hc | hc
      · exact h1 hc
      · rcases List.mem_cons.1 hc with hc | hc
        · cases hc
        · exact h2 hc)
    rw [List.nil_append] at e2
    unfold segs
    rw [e2]
    simp only [splitOn] at e1
    cases ss with
    | nil => simp only [List.nil_append, List.cons.injEq, and_true] at e1; rw [← e1]; rfl
    | cons s ss =>
      have := congrArg List.length e1
      simp at this
  have hcomp : segComp (stem ++ '.' :: ext) = some (.normal (stem ++ '.' :: ext)) := by
    cases stem with
    | nil => exact absurd rfl hs
    | cons c r =>
      unfold segComp
      rw [if_neg, if_neg]
      · intro he
        have hl := congrArg List.length he
        simp at hl
        exact hx (List.length_eq_zero_iff.1 (by omega))
      · rintro (he | he)
        · cases he
        · have hl := congrArg List.length he
          simp at hl
  have hname : fileName (d ++ '/' :: (stem ++ '.' :: ext)) = some (stem ++ '.' :: ext) := by
    unfold fileName comps
    rw [hseg, List.filterMap_append]
    simp only [List.filterMap_cons, hcomp, List.filterMap_nil]
    rw [← List.append_assoc, List.getLast?_append]
    rfl
  unfold extension
  rw [hname]
  simp only [Option.bind_some]
  rw [lastDot_append stem ext h3]
  simp [hs]

/-- the header line for a file of the media type `t` -/
def typed (t : Text) : List Text := [t ++ "; charset=utf-8".toList]

theorem builtin_mem {ext t : Text} (h : builtin ext = some t) : ∃ p ∈ builtinTypes, p.1.toList = ext ∧ p.2.toList = t := by
  unfold builtin at h
  cases hf : builtinTypes.find? (fun x => x.1.toList = ext) with
  | none => rw [hf] at h; cases h
  | some p =>
    rw [hf] at h
    refine ⟨p, List.mem_of_find?_eq_some hf, ?_, ?_⟩
    · simpa using List.find?_some hf
    · simpa using h

theorem builtin_none {ext : Text} (h : ∀ p ∈ builtinTypes, p.1.toList ≠ ext) : builtin ext = none := by
  unfold builtin
  rw [List.find?_eq_none.2 (by intro p hp; simpa using h p hp)]
  rfl

/-- The built-in media types, as the table of the file server has them. -/
def knownTypes : List (String × String) :=
  [ ("doc", "application/msword"),
    ("pdf", "application/pdf"),
    ("rtf", "application/rtf"),
    ("xls", "application/vnd.ms-excel"),
    ("ppt", "application/vnd.ms-powerpoint"),
    ("rar", "application/application/x-rar-compressed"),
    ("swf", "application/x-shockwave-flash"),
    ("zip", "application/zip"),
    ("json", "application/json"),
    ("js", "application/javascript"),
    ("yaml", "text/plain"),
    ("yml", "text/plain"),
    ("toml", "text/plain"),
    ("mid", "audio/midi"),
    ("midi", "audio/midi"),
    ("kar", "audio/midi"),
    ("mp3", "audio/mpeg"),
    ("ogg", "audio/ogg"),
    ("m4a", "audio/m4a"),
    ("ra", "audio/x-realaudio"),
    ("gif", "image/gif"),
    ("jpeg", "image/jpeg"),
    ("jpg", "image/jpeg"),
    ("png", "image/png"),
    ("tif", "image/tiff"),
    ("tiff", "image/tiff"),
    ("wbmp", "image/vnd.wap.wbmp"),
    ("ico", "image/x-icon"),
    ("jng", "image/x-jng"),
    ("bmp", "image/x-ms-bmp"),
    ("svg", "image/svg+xml"),
    ("svgz", "image/svg+xml"),
    ("webp", "image/webp"),
    ("css", "text/css"),
    ("html", "text/html"),
    ("htm", "text/html"),
    ("shtml", "text/html"),
    ("txt", "text/plain"),
    ("md", "text/plain"),
    ("xml", "text/xml"),
    ("3gpp", "video/3gpp"),
    ("3gp", "video/3gpp"),
    ("mp4", "video/mp4"),
    ("mpeg", "video/mpeg"),
    ("mpg", "video/mpeg"),
    ("mov", "video/quicktime"),
    ("webm", "video/webm"),
    ("flv", "video/x-flv"),
    ("m4v", "video/x-m4v"),
    ("wmv", "video/x-ms-wmv"),
    ("avi", "video/x-msvideo") ]

theorem knownTypes_eq : knownTypes = builtinTypes := rfl

/-- The file asked for has the ending `ext`, where `q` is the file sent: this file, or its precompressed form. -/
def AskedEnds (q : Text) (enc : Option Text) (ext : Text) : Prop :=
  match enc with
  | none => Ends q ext
  | some _ => ∃ asked, Ends asked ext ∧ (q = asked ++ ".gz".toList ∨ q = asked ++ ".br".toList)

theorem extension_asked {q : Text} {enc : Option Text} {ext : Text} (h : AskedEnds q enc ext) :
    extension (baseOf q enc) = some ext := by
  cases enc with
  | none => exact extension_ends h
  | some _ =>
    obtain ⟨asked, h1, h2⟩ := h
    rw [← extension_ends h1]
    congr 1
    show q.take (q.length - 3) = asked
    have key : ∀ z : Text, z.length = 3 → (asked ++ z).take ((asked ++ z).length - 3) = asked := by
      intro z hz
      rw [List.length_append, hz, Nat.add_sub_cancel, List.take_left]
    rcases h2 with rfl | rfl
    · exact key _ rfl
    · exact key _ rfl

/-- the line of an answer with a file that is not 304 -/
theorem content_type {e : Fs} {f : FileSrv} {x : Extra} {env : HEnv} {info : Text → Meta} {bytes : Text → Nat} {path : Text}
    {accept : Option Text} {c : Cond} {a : Answer} {q : Text} {enc rate : Option Text}
    (h : answer e f x env info bytes path accept c = some a) (hd : dealRequest e f path accept = .file q enc rate)
    (h1 : c.ifNoneMatch = none) (h2 : c.ifModifiedSince = none) :
    values a.lines .contentType = typed (mimetype builtin f ((extension (baseOf q enc)).getD [])) := by
  unfold answer at h
  rw [hd] at h
  dsimp only at h
  cases hf : fileLines env f x c (info q) (baseOf q enc) enc with
  | none => rw [hf] at h; cases h
  | some r =>
    rw [hf] at h
    cases h
    have hn : notModified env.toCondEnv c (info q) = false := by unfold notModified; rw [h1, h2]; rfl
    show values r.lines _ = _
    rw [fileLines_values hf _ (by decide) (by decide) (by decide), metaLines_values, settingLines_values, hn]
    simp only [reduceCtorEq, if_false, Bool.false_eq_true]
    rw [contentLines_values]
    rfl

/-- **C165**, partial: a file that is sent, as it is or in a precompressed form, is labelled with the media type that is known
    for its ending: the built-in one, else the configured one, else the configured default. Missing: that the types known are
    right, and endings in capitals, see the next theorems. -/
theorem C165_type_partial (e : Fs) (f : FileSrv) (x : Extra) (env : HEnv) (info : Text → Meta) (bytes : Text → Nat)
    (path : Text) (accept : Option Text) (c : Cond) (a : Answer) (q ext : Text) (enc rate : Option Text)
    (h : answer e f x env info bytes path accept c = some a) (hd : dealRequest e f path accept = .file q enc rate)
    (h1 : c.ifNoneMatch = none) (h2 : c.ifModifiedSince = none) (hq : AskedEnds q enc ext) (hn : (f.extMime.map (·.1)).Nodup) :
    (∀ p ∈ knownTypes, p.1.toList = ext → values a.lines .contentType = typed p.2.toList) ∧
    ((∀ p ∈ knownTypes, p.1.toList ≠ ext) →
      (∀ t, (ext, t) ∈ f.extMime → values a.lines .contentType = typed t) ∧
      ((∀ t, (ext, t) ∉ f.extMime) → values a.lines .contentType = typed f.defaultMime)) := by
  have hct := content_type h hd h1 h2
  rw [extension_asked hq, Option.getD_some] at hct
  rw [hct, knownTypes_eq]
  refine ⟨?_, ?_⟩
  · intro p hp hpe
    have hb : builtin ext = some p.2.toList := by
      rw [← hpe]
      have : ∀ p ∈ builtinTypes, builtin p.1.toList = some p.2.toList := by decide +kernel
      exact this p hp
    rw [C75_mime_fails builtin f ext _ hb]
  · intro hb
    have := C75_mime_partial builtin f ext (builtin_none hb) hn
    exact ⟨fun t ht => by rw [this.1 t ht], fun ht => by rw [this.2 ht]⟩

/-- **C165** fails for archives with the ending `rar`: what they are labelled with has two slashes and so is no media type,
    whatever is configured. -/
theorem C165_rar_fails (e : Fs) (f : FileSrv) (x : Extra) (env : HEnv) (info : Text → Meta) (bytes : Text → Nat)
    (path : Text) (accept : Option Text) (c : Cond) (a : Answer) (q : Text) (enc rate : Option Text)
    (h : answer e f x env info bytes path accept c = some a) (hd : dealRequest e f path accept = .file q enc rate)
    (h1 : c.ifNoneMatch = none) (h2 : c.ifModifiedSince = none) (hq : AskedEnds q enc "rar".toList) :
    ∃ v, values a.lines .contentType = [v] ∧ v.count '/' = 2 := by
  have hct := content_type h hd h1 h2
  rw [extension_asked hq, Option.getD_some] at hct
  have hb : builtin "rar".toList = some "application/application/x-rar-compressed".toList := by decide +kernel
  rw [C75_mime_fails builtin f _ _ hb] at hct
  exact ⟨_, hct, by decide +kernel⟩

/-- **C165** fails for endings with a capital letter (`.HTML`, `.JPG`): no built-in type is known for them; if nothing is
    configured for this spelling they are labelled with the default type. -/
theorem C165_capital_fails (e : Fs) (f : FileSrv) (x : Extra) (env : HEnv) (info : Text → Meta) (bytes : Text → Nat)
    (path : Text) (accept : Option Text) (c : Cond) (a : Answer) (q ext : Text) (enc rate : Option Text)
    (h : answer e f x env info bytes path accept c = some a) (hd : dealRequest e f path accept = .file q enc rate)
    (h1 : c.ifNoneMatch = none) (h2 : c.ifModifiedSince = none) (hq : AskedEnds q enc ext) (hcap : ∃ k ∈ ext, 'A' ≤ k ∧ k ≤ 'Z')
    (hno : ∀ t, (ext, t) ∉ f.extMime) (hn : (f.extMime.map (·.1)).Nodup) :
    values a.lines .contentType = typed f.defaultMime := by
  refine ((C165_type_partial e f x env info bytes path accept c a q ext enc rate h hd h1 h2 hq hn).2 ?_).2 hno
  intro p hp hpe
  obtain ⟨k, hk, hle⟩ := hcap
  have : ∀ p ∈ knownTypes, ∀ k ∈ p.1.toList, ¬ ('A' ≤ k ∧ k ≤ 'Z') := by decide +kernel
  exact this p hp k (hpe ▸ hk) hle

/-! ### C166: HEAD -/

/-- **C166**, partial: a HEAD request for a file, without conditions and range, is answered as GET — same status, same header
    lines — but without content, and announces the length of the file. Missing: with a range, see the next theorem. -/
theorem C166_head_partial (e : Fs) (f : FileSrv) (x : Extra) (env : HEnv) (info : Text → Meta) (bytes : Text → Nat)
    (path : Text) (accept : Option Text) (c : Cond) (q : Text) (enc rate : Option Text)
    (hd : dealRequest e f path accept = .file q enc rate) (hi : c.ifRange = none) (hr : c.range = none)
    (h1 : c.ifNoneMatch = none) (h2 : c.ifModifiedSince = none) :
    ∃ g a, answer e f x env info bytes path accept { c with head := false } = some g ∧
      answer e f x env info bytes path accept { c with head := true } = some a ∧
      g.status = 200 ∧ g.source = .file q .whole ∧ a.status = 200 ∧ a.source = .file q .empty ∧
      values a.lines .contentLength = [showNat (info q).len] ∧
      ∀ n, n ≠ .contentLength → n ≠ .acceptRanges → values a.lines n = values g.lines n := by
  have key : ∀ b, ∃ a, answer e f x env info bytes path accept { c with head := b } = some a ∧ a.status = 200 ∧
      a.source = .file q (if b then .empty else .whole) ∧
      a.lines = (if b then (Lines.insert (Lines.insert
          (metaLines env (info q) (settingLines env x (contentLines f (baseOf q enc) enc))) .acceptRanges "bytes".toList)
          .contentLength (showNat (info q).len))
        else metaLines env (info q) (settingLines env x (contentLines f (baseOf q enc) enc))) := by
    intro b
    have hn : notModified env.toCondEnv { c with head := b } (info q) = false := by
      unfold notModified
      dsimp only
      rw [h1, h2]; rfl
    have hf : fileLines env f x { c with head := b } (info q) (baseOf q enc) enc
        = some (headLines { c with head := b } (info q)
            ⟨200, .whole, metaLines env (info q) (settingLines env x (contentLines f (baseOf q enc) enc))⟩) := by
      unfold fileLines
      rw [hn]
      simp only [Bool.false_eq_true, if_false]
      have hok : ifRangeOk env.toCondEnv { c with head := b } (info q) = true := by unfold ifRangeOk; dsimp only; rw [hi]
      unfold afterLines rangeLines
      dsimp only
      rw [hok, hr]
      by_cases hacc : c.acceptRanges = none ∨ c.acceptRanges = some ['b', 'y', 't', 'e', 's']
      · rw [if_pos hacc, if_pos rfl]
      · rw [if_neg hacc]
    refine ⟨⟨200, .file q (if b then .empty else .whole), _⟩, ?_, rfl, rfl, rfl⟩
    unfold answer
    rw [hd]
    dsimp only
    rw [hf]
    unfold headLines
    cases b <;> rfl
  obtain ⟨g, hg, g1, g2, g3⟩ := key false
  obtain ⟨a, ha, a1, a2, a3⟩ := key true
  refine ⟨g, a, hg, ha, g1, g2, a1, a2, ?_, ?_⟩
  · rw [a3, if_pos rfl]
    exact values_insert_self _ _ _
  · intro n hn1 hn2
    rw [a3, g3, if_pos rfl, if_neg (by decide), values_insert_ne _ _ (Ne.symm hn1), values_insert_ne _ _ (Ne.symm hn2)]

/-- **C166** fails with a range: a HEAD request is told that a part is sent, but announces the length of the whole file — for
    every range that is served and every file. -/
theorem C166_range_fails (e : Fs) (f : FileSrv) (x : Extra) (env : HEnv) (info : Text → Meta) (bytes : Text → Nat)
    (path : Text) (accept : Option Text) (c : Cond) (q : Text) (enc rate : Option Text) (t : Text) (s l : Nat) (b : FBody)
    (hd : dealRequest e f path accept = .file q enc rate) (hh : c.head = true) (hi : c.ifRange = none) (ht : c.range = some t)
    (hc : calcRange t (info q).len = some (s, l)) (hb : env.seek .whole s l = some b) (h1 : c.ifNoneMatch = none)
    (h2 : c.ifModifiedSince = none) (h3 : c.acceptRanges = none) :
    ∃ a, answer e f x env info bytes path accept c = some a ∧ a.status = 206 ∧
      values a.lines .contentLength = [showNat (info q).len] := by
  have hn : notModified env.toCondEnv c (info q) = false := by unfold notModified; rw [h1, h2]; rfl
  have hok : ifRangeOk env.toCondEnv c (info q) = true := by unfold ifRangeOk; rw [hi]
  have hf : ∃ r, fileLines env f x c (info q) (baseOf q enc) enc = some r ∧ r.status = 206 ∧
      values r.lines .contentLength = [showNat (info q).len] := by
    unfold fileLines
    rw [hn]
    simp only [Bool.false_eq_true, if_false]
    unfold afterLines rangeLines
    dsimp only
    rw [if_pos (Or.inl h3), if_pos hok, ht]
    dsimp only
    rw [hc]
    dsimp only
    rw [hb]
    dsimp only
    refine ⟨_, rfl, ?_, ?_⟩
    · unfold headLines; rw [if_pos hh]
    · unfold headLines; rw [if_pos hh]; exact values_insert_self _ _ _
  obtain ⟨r, hr, r1, r2⟩ := hf
  refine ⟨⟨r.status, .file q r.body, r.lines⟩, ?_, r1, r2⟩
  unfold answer
  rw [hd]
  dsimp only
  rw [hr]
  rfl

/-- **C72** fails for directory pages and the robots text: to HEAD the file server makes the same answer as to GET, with its
    content. -/
theorem C72_page_fails (e : Fs) (f : FileSrv) (x : Extra) (env : HEnv) (info : Text → Meta) (bytes : Text → Nat)
    (path : Text) (accept : Option Text) (c : Cond) (a : Answer)
    (h : answer e f x env info bytes path accept { c with head := false } = some a)
    (hs : a.source = .robots ∨ ∃ d, a.source = .page d) :
    answer e f x env info bytes path accept { c with head := true } = some a := by
  unfold answer at h ⊢
  cases hd : dealRequest e f path accept with
  | robots => rw [hd] at h; exact h
  | panic => rw [hd] at h; cases h
  | listing _ _ _ => rw [hd] at h; exact h
  | file q enc rt =>
    rw [hd] at h
    dsimp only at h
    cases hf : fileLines env f x { c with head := false } (info q) (baseOf q enc) enc with
    | none => rw [hf] at h; cases h
    | some r => rw [hf] at h; cases h; rcases hs with hs | ⟨_, hs⟩ <;> cases hs
  | refused =>
    rw [hd] at h
    cases h
    unfold refusalLines at hs
    repeat' split at hs
    all_goals (rcases hs with hs | ⟨_, hs⟩ <;> cases hs)

/-! ### examples -/

def lnFs : Fs :=
  { demoFs "/s/a.rar".toList with ex := fun p => p ∈ ["/s/a.rar".toList, "/s/b.HTML".toList, "/s/c.txt".toList, "/s/c.txt.gz".toList] }
def lnSrv : FileSrv := { demoSrv with pfx := [], precompressed := ["gzip".toList] }
def lnX : Extra := ⟨some 3600000000000, true, true, 404, none⟩
def lnEnv : HEnv := { lastMod := fun _ => 0, seek := fun _ s e => some (.part s e), now := "now".toList, dateText := fun _ => some "then".toList }
def lnC : Cond := ⟨none, none, none, none, none, false⟩

example : Ends "/s/a.rar".toList "rar".toList := ⟨"/s".toList, "a".toList, by decide⟩
example : AskedEnds "/s/c.txt.gz".toList (some "gzip".toList) "txt".toList :=
  ⟨"/s/c.txt".toList, ⟨"/s".toList, "c".toList, by decide⟩, .inl rfl⟩

/-- a whole answer -/
example : answer lnFs lnSrv lnX lnEnv (fun _ => ⟨5, some 16⟩) List.length "/c.txt".toList (some "gzip".toList) lnC =
    some ⟨200, .file "/s/c.txt.gz".toList .whole,
      [(.contentType, "text/plain; charset=utf-8".toList), (.transferEncoding, "chunked".toList),
       (.cacheControl, "max-age=3600".toList),
       (.allowHeaders, "Origin, X-Requested-With, Content-Type, Accept, Range".toList), (.allowOrigin, ['*']),
       (.contentEncoding, []), (.date, "now".toList), (.lastModified, "then".toList), (.etag, "10-5".toList)]⟩ := by
  decide +kernel

example : dealRequest lnFs lnSrv "/a.rar".toList none = .file "/s/a.rar".toList none none := by decide +kernel
example : dealRequest lnFs lnSrv "/b.HTML".toList none = .file "/s/b.HTML".toList none none := by decide +kernel
example : dealRequest lnFs lnSrv "/c.txt".toList (some "gzip".toList) = .file "/s/c.txt.gz".toList (some "gzip".toList) none := by
  decide +kernel

/-- a directory page and a message -/
example : (answer { lnFs with isDir := fun p => p = "/s/".toList } lnSrv lnX lnEnv (fun _ => ⟨5, none⟩) List.length "/".toList none
    lnC).map (·.source) = some (.page "/s/".toList) := by decide +kernel
example : (answer lnFs lnSrv lnX lnEnv (fun _ => ⟨5, none⟩) List.length "/x".toList none lnC).map (·.source) = some .message := by
  decide +kernel

/-- a range asked for with HEAD -/
example : calcRange "bytes=1-2".toList 5 = some (1, 2) := by decide +kernel

end Wm.Files
