import Verif.Props.FileLines
/-! Properties C167 (the robots text) and C168 (how the end of an answer is told). -/
namespace Wm.Files
open Wm

/-- **C167** With a robots text configured, a request for `/robots.txt` is answered 200 with that text — as plain text, with its
    length —, whatever the directory holds, whatever is hidden, whatever prefix the file server is under, and whatever the
    request asks for besides. -/
theorem C167_robots (e : Fs) (f : FileSrv) (x : Extra) (env : HEnv) (info : Text → Meta) (bytes : Text → Nat)
    (accept : Option Text) (c : Cond) (t : Text) (ht : f.robots = some t) :
    ∃ a, answer e f x env info bytes "/robots.txt".toList accept c = some a ∧ a.status = 200 ∧ a.source = .robots ∧
      values a.lines .contentType = ["text/plain; charset=utf-8".toList] ∧
      values a.lines .contentLength = [showNat (bytes t)] ∧
      (x.disableCompress = false → values a.lines .contentEncoding = []) := by
  have hd : dealRequest e f "/robots.txt".toList accept = .robots := by
    unfold dealRequest
    rw [if_pos ⟨rfl, by rw [ht]; rfl⟩]
  unfold answer
  rw [hd]
  refine ⟨_, rfl, rfl, rfl, ?_, ?_, ?_⟩
  all_goals
    unfold afterLines
    dsimp only
    rw [settingLines_values, ht]
    simp only [reduceCtorEq, if_false, if_true, Option.getD_some]
  · generalize "text/plain; charset=utf-8".toList = o
    generalize "chunked".toList = o'
    simp [values]
  · generalize "text/plain; charset=utf-8".toList = o
    generalize "chunked".toList = o'
    simp [values]
  · intro hx
    rw [hx]
    generalize "text/plain; charset=utf-8".toList = o
    generalize "chunked".toList = o'
    simp [values]

/-- **C167** (nothing else) The robots text is only sent for `/robots.txt` and only if one is configured. -/
theorem C167_only (e : Fs) (f : FileSrv) (x : Extra) (env : HEnv) (info : Text → Meta) (bytes : Text → Nat) (path : Text)
    (accept : Option Text) (c : Cond) (a : Answer) (h : answer e f x env info bytes path accept c = some a)
    (hs : a.source = .robots) : path = "/robots.txt".toList ∧ f.robots ≠ none := by
  unfold answer at h
  cases hd : dealRequest e f path accept with
  | robots =>
    unfold dealRequest at hd
    split at hd
    · rename_i hp
      refine ⟨hp.1, ?_⟩
      intro hn
      rw [hn] at hp
      cases hp.2
    · exfalso
      split at hd
      · cases hd
      · split at hd
        · cases hd
        · dsimp only at hd
          repeat' split at hd
          all_goals first
            | cases hd
            | (unfold byFile at hd; repeat' split at hd) <;> cases hd
  | panic => rw [hd] at h; cases h
  | listing d y z => rw [hd] at h; cases h; cases hs
  | file q enc rt =>
    rw [hd] at h
    dsimp only at h
    cases hf : fileLines env f x c (info q) (baseOf q enc) enc with
    | none => rw [hf] at h; cases h
    | some r => rw [hf] at h; cases h; cases hs
  | refused =>
    rw [hd] at h
    cases h
    unfold refusalLines at hs
    repeat' split at hs
    all_goals cases hs

/-- **C167** The same for the status and the source in the model of what is sent. -/
theorem C167_sent (e : Fs) (f : FileSrv) (env : CondEnv) (info : Text → Meta) (status : Nat) (page404 : Option Text)
    (accept : Option Text) (c : Cond) (ht : f.robots ≠ none) :
    sent e f env info status page404 "/robots.txt".toList accept c = some (200, none) := by
  have hd : dealRequest e f "/robots.txt".toList accept = .robots := by
    unfold dealRequest
    rw [if_pos ⟨rfl, by cases hr : f.robots with
      | none => exact absurd hr ht
      | some _ => rfl⟩]
  unfold sent
  rw [hd]

/-- **C50**, **C71**, **C72** (with the header lines) An answer with a file has the status and the content that these properties
    are stated for. -/
theorem C50_answer (e : Fs) (f : FileSrv) (x : Extra) (env : HEnv) (info : Text → Meta) (bytes : Text → Nat) (path : Text)
    (accept : Option Text) (c : Cond) (a : Answer) (q : Text) (b : FBody)
    (h : answer e f x env info bytes path accept c = some a) (hq : a.source = .file q b) :
    ∃ r, fileResponse env.toCondEnv c (info q) = some r ∧ r.status = a.status ∧ r.body = b := by
  obtain ⟨base, enc, r, hr, rfl, -⟩ := answer_file (q := q) h (by unfold Answer.file?; rw [hq])
  cases hq
  have hcore := fileLines_core env f x c (info q) base enc
  rw [hr] at hcore
  cases hf : fileResponse env.toCondEnv c (info q) with
  | none => rw [hf] at hcore; cases hcore
  | some y =>
    rw [hf] at hcore
    simp only [Option.map_some, Option.some.injEq, Prod.mk.injEq] at hcore
    exact ⟨y, rfl, hcore.1.symm, hcore.2.symm⟩

/-- **C146**, **C149** (with the header lines) The answer has the status and the source these properties are stated for. -/
theorem C149_answer (e : Fs) (f : FileSrv) (x : Extra) (env : HEnv) (info : Text → Meta) (bytes : Text → Nat) (path : Text)
    (accept : Option Text) (c : Cond) :
    (answer e f x env info bytes path accept c).map (fun a => (a.status, a.file?)) =
      sent e f env.toCondEnv info x.status x.path404 path accept c := by
  have key : ∀ q base enc, (fileLines env f x c (info q) base enc).map (fun r => (r.status, some q)) =
      (fileResponse env.toCondEnv c (info q)).map fun r => (r.status, some q) := by
    intro q base enc
    have hcore := fileLines_core env f x c (info q) base enc
    cases hf : fileResponse env.toCondEnv c (info q) with
    | none =>
      cases hl : fileLines env f x c (info q) base enc with
      | none => rfl
      | some r => rw [hf, hl] at hcore; cases hcore
    | some y =>
      cases hl : fileLines env f x c (info q) base enc with
      | none => rw [hf, hl] at hcore; cases hcore
      | some r =>
        rw [hf, hl] at hcore
        simp only [Option.map_some, Option.some.injEq, Prod.mk.injEq] at hcore ⊢
        exact ⟨hcore.1, trivial⟩
  unfold answer sent
  cases hd : dealRequest e f path accept with
  | robots => rfl
  | panic => rfl
  | listing d y z => rfl
  | file q enc rt =>
    dsimp only
    rw [← key q (baseOf q enc) enc, Option.map_map]
    rfl
  | refused =>
    dsimp only
    unfold refusalLines retError
    cases x.status == 404 with
    | false => rfl
    | true =>
      cases x.path404 with
      | none => rfl
      | some p =>
        dsimp only
        cases byFile e f accept p with
        | robots => rfl
        | panic => rfl
        | listing _ _ _ => rfl
        | refused => rfl
        | file q enc rt =>
          dsimp only
          have hk := key q (baseOf q enc) enc
          cases hl : fileLines env f x c (info q) (baseOf q enc) enc with
          | none =>
            rw [hl] at hk
            cases hf : fileResponse env.toCondEnv c (info q) with
            | none => rfl
            | some y => rw [hf] at hk; cases hk
          | some r =>
            rw [hl] at hk
            cases hf : fileResponse env.toCondEnv c (info q) with
            | none => rw [hf] at hk; cases hk
            | some y => rw [hf] at hk; exact hk

/-! ### C168 -/

/-- the answer tells its end in two ways at once -/
def Twice (a : Answer) : Prop := values a.lines .contentLength ≠ [] ∧ values a.lines .transferEncoding ≠ []

theorem settingLines_keeps (env : HEnv) (x : Extra) (hs : Lines) (n : Name) (h : n = .contentLength ∨ n = .transferEncoding) :
    values (settingLines env x hs) n = values hs n := by
  rw [settingLines_values]
  rcases h with rfl | rfl <;> simp only [reduceCtorEq, if_false]

theorem metaLines_keeps (env : HEnv) (m : Meta) (hs : Lines) (n : Name) (h : n = .contentLength ∨ n = .transferEncoding) :
    values (metaLines env m hs) n = values hs n := by
  rw [metaLines_values]
  rcases h with rfl | rfl <;> simp only [reduceCtorEq, if_false]

theorem headLines_get (c : Cond) (m : Meta) (r : HResp) (h : c.head = false) : headLines c m r = r := by
  unfold headLines
  rw [h]
  rfl

/-- without HEAD no length is set -/
theorem afterLines_length (env : HEnv) (x : Extra) (c : Cond) (m : Meta) (r : HResp) (h : c.head = false) :
    values (afterLines env x c (some m) r).1.lines .contentLength = values r.lines .contentLength := by
  have h0 : values (metaLines env m (settingLines env x r.lines)) .contentLength = values r.lines .contentLength := by
    rw [metaLines_keeps env m _ _ (Or.inl rfl), settingLines_keeps env x _ _ (Or.inl rfl)]
  unfold afterLines
  dsimp only
  by_cases h1 : c.acceptRanges = none ∨ c.acceptRanges = some ['b', 'y', 't', 'e', 's']
  · rw [if_pos h1]
    by_cases h2 : ifRangeOk env.toCondEnv c m = true
    · rw [if_pos h2]
      have hr := rangeLines_values env c m { r with lines := metaLines env m (settingLines env x r.lines) } .contentLength
        (by decide)
      generalize rangeLines env c m { r with lines := metaLines env m (settingLines env x r.lines) } = z at hr ⊢
      obtain ⟨r', b⟩ := z
      cases b with
      | true => dsimp only; rw [headLines_get c m _ h, hr, h0]
      | false => exact hr.trans h0
    · rw [if_neg h2]
      exact h0
  · rw [if_neg h1, headLines_get c m _ h]
    exact h0

/-- **C168**, partial: answers to GET tell their end in one way only, except the robots text (next theorem). Missing: HEAD, see
    below. -/
theorem C168_get_partial (e : Fs) (f : FileSrv) (x : Extra) (env : HEnv) (info : Text → Meta) (bytes : Text → Nat)
    (path : Text) (accept : Option Text) (c : Cond) (hc : c.head = false) (a : Answer)
    (h : answer e f x env info bytes path accept c = some a) (hs : path ≠ "/robots.txt".toList ∨ f.robots = none) :
    ¬ Twice a := by
  have key : ∀ m base enc r, fileLines env f x c m base enc = some r → values r.lines .contentLength = [] := by
    intro m base enc r hr
    unfold fileLines at hr
    split at hr
    · cases hr
      exact afterLines_length env x c m _ hc
    · have hl := afterLines_length env x c m ⟨200, .whole, contentLines f base enc⟩ hc
      have hz : values (contentLines f base enc) .contentLength = [] := by
        rw [contentLines_values]; simp only [reduceCtorEq, if_false]
      split at hr
      · rename_i r' hr'
        cases hr
        rw [hr'] at hl
        exact hl.trans hz
      · cases hr
  rintro ⟨hl, -⟩
  apply hl
  unfold answer at h
  cases hd : dealRequest e f path accept with
  | robots =>
    exfalso
    have := C167_only e f x env info bytes path accept c _ (by unfold answer; rw [hd]) rfl
    rcases hs with hs | hs
    · exact hs this.1
    · exact this.2 hs
  | panic => rw [hd] at h; cases h
  | listing d y z =>
    rw [hd] at h
    cases h
    dsimp only
    generalize "text/html; charset=utf-8".toList = o
    split
    · rw [values_insert_ne _ _ (by decide)]; rfl
    · rfl
  | file q enc rt =>
    rw [hd] at h
    dsimp only at h
    cases hf : fileLines env f x c (info q) (baseOf q enc) enc with
    | none => rw [hf] at h; cases h
    | some r => rw [hf] at h; cases h; exact key _ _ _ _ hf
  | refused =>
    rw [hd] at h
    cases h
    unfold refusalLines
    split
    · split
      · split
        · rename_i r hf
          exact key _ _ _ _ hf
        · rfl
      · rfl
    · rfl

/-- **C146** (label) A directory page is labelled as HTML in UTF-8, whatever the settings and the request. -/
theorem C146_label (e : Fs) (f : FileSrv) (x : Extra) (env : HEnv) (info : Text → Meta) (bytes : Text → Nat) (path : Text)
    (accept : Option Text) (c : Cond) (a : Answer) (h : answer e f x env info bytes path accept c = some a) (dir : Text)
    (hp : a.source = .page dir) : a.status = 200 ∧ values a.lines .contentType = ["text/html; charset=utf-8".toList] := by
  unfold answer at h
  cases hd : dealRequest e f path accept with
  | robots => rw [hd] at h; cases h; cases hp
  | panic => rw [hd] at h; cases h
  | listing d y z =>
    rw [hd] at h
    cases h
    refine ⟨rfl, ?_⟩
    dsimp only
    generalize "text/html; charset=utf-8".toList = o
    split
    · rw [values_insert_ne _ _ (by decide)]; rfl
    · rfl
  | file q enc rt =>
    rw [hd] at h
    dsimp only at h
    cases hf : fileLines env f x c (info q) (baseOf q enc) enc with
    | none => rw [hf] at h; cases h
    | some r => rw [hf] at h; cases h; cases hp
  | refused =>
    rw [hd] at h
    cases h
    unfold refusalLines at hp
    split at hp
    · split at hp
      · split at hp <;> cases hp
      · cases hp
    · cases hp

/-- **C168** fails for the robots text: whatever is asked for it, the answer says both that it has a length and that it is
    chunked. -/
theorem C168_robots_fails (e : Fs) (f : FileSrv) (x : Extra) (env : HEnv) (info : Text → Meta) (bytes : Text → Nat)
    (accept : Option Text) (c : Cond) (hr : f.robots ≠ none) :
    ∃ a, answer e f x env info bytes "/robots.txt".toList accept c = some a ∧ Twice a ∧
      values a.lines .transferEncoding = ["chunked".toList] := by
  have hd : dealRequest e f "/robots.txt".toList accept = .robots := by
    unfold dealRequest
    rw [if_pos ⟨rfl, by cases h : f.robots with
      | none => exact absurd h hr
      | some _ => rfl⟩]
  unfold answer
  rw [hd]
  refine ⟨_, rfl, ⟨?_, ?_⟩, ?_⟩
  all_goals
    unfold afterLines
    dsimp only
  · rw [settingLines_keeps env x _ _ (Or.inl rfl)]
    generalize "text/plain; charset=utf-8".toList = o
    generalize "chunked".toList = o'
    simp [values]
  · rw [settingLines_keeps env x _ _ (Or.inr rfl)]
    generalize "text/plain; charset=utf-8".toList = o
    generalize "chunked".toList = o'
    simp [values]
  · rw [settingLines_keeps env x _ _ (Or.inr rfl)]
    generalize "text/plain; charset=utf-8".toList = o
    generalize "chunked".toList = o'
    simp [values]

theorem headLines_status (c : Cond) (m : Meta) (r : HResp) : (headLines c m r).status = r.status := by
  unfold headLines
  split <;> rfl

/-- 200 is not set afterwards -/
theorem afterLines_status (env : HEnv) (x : Extra) (c : Cond) (m : Meta) (r : HResp) (h : r.status ≠ 200) :
    (afterLines env x c (some m) r).1.status ≠ 200 := by
  unfold afterLines
  dsimp only
  by_cases h1 : c.acceptRanges = none ∨ c.acceptRanges = some ['b', 'y', 't', 'e', 's']
  · rw [if_pos h1]
    by_cases h2 : ifRangeOk env.toCondEnv c m = true
    · rw [if_pos h2]
      have hr : (rangeLines env c m { r with lines := metaLines env m (settingLines env x r.lines) }).1.status ≠ 200 := by
        unfold rangeLines
        dsimp only
        cases c.range with
        | none => exact h
        | some t =>
          dsimp only
          cases calcRange t m.len with
          | none => dsimp only; decide
          | some p =>
            dsimp only
            cases env.seek r.body p.1 p.2 with
            | none => exact h
            | some b => dsimp only; decide
      generalize rangeLines env c m { r with lines := metaLines env m (settingLines env x r.lines) } = z at hr ⊢
      obtain ⟨r', b⟩ := z
      cases b with
      | true => dsimp only; rw [headLines_status]; exact hr
      | false => exact hr
    · rw [if_neg h2]
      exact h
  · rw [if_neg h1]
    dsimp only
    rw [headLines_status]
    exact h

/-- HEAD sets the length -/
theorem afterLines_head (env : HEnv) (x : Extra) (c : Cond) (m : Meta) (r r' : HResp) (hc : c.head = true)
    (hi : c.ifRange = none) (h : afterLines env x c (some m) r = (r', true)) :
    values r'.lines .contentLength = [showNat m.len] := by
  have key : ∀ r : HResp, values (headLines c m r).lines .contentLength = [showNat m.len] := by
    intro r
    unfold headLines
    rw [if_pos hc]
    exact values_insert_self _ _ _
  have h2 : ifRangeOk env.toCondEnv c m = true := by unfold ifRangeOk; rw [hi]
  unfold afterLines at h
  dsimp only at h
  rw [if_pos h2] at h
  split at h
  · split at h
    · cases h; exact key _
    · cases h
  · cases h; exact key _

/-- **C168** fails for HEAD: every answer 200 to a HEAD request without `If-Range` for a file says both. -/
theorem C168_head_fails (e : Fs) (f : FileSrv) (x : Extra) (env : HEnv) (info : Text → Meta) (bytes : Text → Nat)
    (path : Text) (accept : Option Text) (c : Cond) (hc : c.head = true) (hi : c.ifRange = none) (a : Answer) (q : Text)
    (h : answer e f x env info bytes path accept c = some a) (hq : a.file? = some q) (hs : a.status = 200) : Twice a := by
  obtain ⟨base, enc, r, hr, rfl, -⟩ := answer_file h hq
  dsimp only at hs
  unfold Twice
  dsimp only
  have hn : notModified env.toCondEnv c (info q) = false := by
    cases hm : notModified env.toCondEnv c (info q) with
    | false => rfl
    | true =>
      exfalso
      unfold fileLines at hr
      rw [hm, if_pos rfl] at hr
      cases hr
      exact afterLines_status env x c _ _ (by decide) hs
  constructor
  · unfold fileLines at hr
    rw [hn, if_neg (by decide)] at hr
    split at hr
    · rename_i r' hr'
      cases hr
      rw [afterLines_head env x c _ _ _ hc hi hr']
      exact List.cons_ne_nil _ _
    · cases hr
  · rw [fileLines_values hr .transferEncoding (by decide) (by decide) (by decide), hn, if_neg (by decide),
      metaLines_keeps env _ _ _ (Or.inr rfl), settingLines_keeps env x _ _ (Or.inr rfl), contentLines_values]
    simp only [reduceCtorEq, if_false, if_true]
    exact List.cons_ne_nil _ _

/-! ### examples -/

def robSrv : FileSrv := { lnSrv with robots := some "User-agent: *".toList }

/-- the text of the configuration, though there is a file of that name which is hidden -/
example : answer { lnFs with ex := fun _ => true } { robSrv with hide := ["robots".toList] } ⟨none, false, false, 404, none⟩ lnEnv
    (fun _ => ⟨5, none⟩) List.length "/robots.txt".toList none lnC =
    some ⟨200, .robots, [(.contentType, "text/plain; charset=utf-8".toList), (.contentLength, "13".toList),
      (.transferEncoding, "chunked".toList), (.date, "now".toList)]⟩ := by decide +kernel

/-- a directory page -/
example : (answer { lnFs with isDir := fun p => p = "/s/".toList } lnSrv lnX lnEnv (fun _ => ⟨5, none⟩) List.length "/".toList none
    lnC).map (fun a => (a.source, values a.lines .contentType)) = some (.page "/s/".toList, ["text/html; charset=utf-8".toList]) := by
  decide +kernel

/-- a file asked for with HEAD, and with GET -/
example : (answer lnFs lnSrv lnX lnEnv (fun _ => ⟨5, some 16⟩) List.length "/a.rar".toList none { lnC with head := true }).map
    (fun a => (a.status, a.file?, values a.lines .contentLength, values a.lines .transferEncoding))
    = some (200, some "/s/a.rar".toList, ["5".toList], ["chunked".toList]) := by decide +kernel
example : (answer lnFs lnSrv lnX lnEnv (fun _ => ⟨5, some 16⟩) List.length "/a.rar".toList none lnC).map
    (fun a => (values a.lines .contentLength, values a.lines .transferEncoding)) = some ([], ["chunked".toList]) := by
  decide +kernel

end Wm.Files
