import Verif.Model.Access
import Verif.Props.Texts
import Verif.Props.Inherit
import Verif.Props.Cli
import Verif.Props.ReverseMore
/-! Properties C129 and C130: access logs. -/
namespace Wm.Access
open Wm Wm.Config Wm.Reverse Wm.Texts

variable {W α β : Type}

/-- the records a log of this level shows -/
def shown : Reverse.Level → List Reverse.Level
  | .error => [.error]
  | .warn => [.error, .warn]
  | .info => [.error, .warn, .info]
  | .debug => [.error, .warn, .info, .debug]
  | .trace => [.error, .warn, .info, .debug, .trace]

theorem rank_shown (l m : Reverse.Level) : rank l ≤ rank m ↔ l ∈ shown m := by
  cases l <;> cases m <;> decide

/-! ### C130: the files -/

theorem find_get (names : Table Text) (k : Text) :
    (names.map fun e => (⟨e.1, (openText e.2).1, (openText e.2).2⟩ : Logger)).find? (fun x => x.name = k)
      = (names.get k).map fun t => ⟨k, (openText t).1, (openText t).2⟩ := by
  unfold Table.get
  induction names with
  | nil => rfl
  | cons e names ih =>
    rw [List.map_cons, List.find?_cons, List.find?_cons]
    by_cases h : e.1 = k
    · simp [h]
    · simp only [h, decide_false]
      exact ih

theorem openLogs_ok {sys : System} {level : Option Cli.Level} {ds : Bool} {names : Table Text} {g : Loggers}
    (h : openLogs sys level ds names = .ok g) :
    g = ⟨names.map fun e => ⟨e.1, (openText e.2).1, (openText e.2).2⟩, level.getD .trace, !ds⟩ := by
  unfold openLogs at h
  dsimp only at h
  split at h
  · cases h; rfl
  · cases h

theorem dests_of {sys : System} {level : Option Cli.Level} {ds : Bool} {names : Table Text} {g : Loggers}
    (h : openLogs sys level ds names = .ok g) {k t : Text} (hk : names.get k = some t) (l : Reverse.Level) :
    g.dests k l = if l ∈ shown (openText t).2 then [.file (openText t).1] else [] := by
  rw [openLogs_ok h]
  unfold Loggers.dests
  simp only [find_get, hk, Option.map_some, rank_shown]

theorem openText_level (path lv : Text) (hp : ' ' ∉ path) (hl : ' ' ∉ lv) :
    openText (path ++ ' ' :: lv) = (path, (parseLevel lv).getD .info) := by
  unfold openText
  rw [split2 _ _ hp hl]

theorem openText_plain (path : Text) (hp : ' ' ∉ path) : openText path = (path, .info) := by
  unfold openText
  rw [split1 _ hp]

/-- **C130** (records) Once the logs are opened, a record for a log whose text is `path level` goes to that file and nowhere
    else if the level shows it, and is dropped otherwise; without level, info. -/
theorem C130_record (sys : System) (level : Option Cli.Level) (ds : Bool) (names : Table Text) (g : Loggers)
    (h : openLogs sys level ds names = .ok g) (k path : Text) (hp : ' ' ∉ path) (l : Reverse.Level) :
    (∀ m lv, LevelName m lv → ' ' ∉ lv → names.get k = some (path ++ ' ' :: lv) →
      g.dests k l = if l ∈ shown m then [.file path] else []) ∧
    (names.get k = some path → g.dests k l = if l ∈ [.error, .warn, .info] then [.file path] else []) := by
  constructor
  · intro m lv hm hlv hk
    rw [dests_of h hk, openText_level _ _ hp hlv, parseLevel_name m lv hm]
    rfl
  · intro hk
    rw [dests_of h hk, openText_plain _ hp]
    rfl

/-- the blocks of the configuration in the order in which they are written -/
def blocks (h : HttpConf α β) : List Common :=
  h.comm :: h.server.flatMap fun s => s.comm :: s.location.map (·.comm)

theorem innermost_append {γ : Type} (a b : List (Option γ)) : innermost (a ++ b) = innermost [innermost a, innermost b] := by
  induction a with
  | nil => cases h : innermost b <;> simp [innermost, h]
  | cons x a ih =>
    cases x with
    | some v => rfl
    | none => exact ih

theorem innermost_cons {γ : Type} (a : Option γ) (b : List (Option γ)) : innermost (a :: b) = innermost [a, innermost b] :=
  innermost_append [a] b |>.trans (by cases a <;> rfl)

theorem innermost_none {γ : Type} (b : List (Option γ)) : innermost (none :: b) = innermost b := rfl

theorem fold_names (k : Text) (cs : List Common) (t : Table Text) :
    (cs.foldl (fun t c => addMissing t c.logNames) t).get k = innermost (t.get k :: cs.map (·.logNames.get k)) := by
  induction cs generalizing t with
  | nil => cases h : t.get k <;> simp [innermost, h]
  | cons c cs ih =>
    rw [List.foldl_cons, ih, addMissing_get, List.map_cons]
    cases t.get k <;> cases c.logNames.get k <;> rfl

theorem logNames_blocks (h : HttpConf α β) (k : Text) :
    (logNames h).get k = innermost ((blocks h).map (·.logNames.get k)) := by
  unfold logNames blocks
  rw [List.map_cons]
  have e : ∀ (ss : List (SrvConf α β)) (t : Table Text),
      ss.foldl (fun t s => s.location.foldl (fun t l => addMissing t l.comm.logNames) (addMissing t s.comm.logNames)) t
        = (ss.flatMap fun s => s.comm :: s.location.map (·.comm)).foldl (fun t c => addMissing t c.logNames) t := by
    intro ss
    induction ss with
    | nil => intro t; rfl
    | cons s ss ih =>
      intro t
      rw [List.foldl_cons, ih, List.flatMap_cons, List.foldl_append, List.foldl_cons, List.foldl_map]
  rw [e, fold_names, addMissing_get]
  rw [show (Table.get ([] : Table Text) k) = none from rfl]
  rw [show innermost [none, h.comm.logNames.get k] = innermost [h.comm.logNames.get k] from rfl]
  cases h.comm.logNames.get k <;> rfl

theorem effective_names (h : HttpConf α β) (s : SrvConf α β) (l : LocConf α β) (hh : h.comm.logNames.Ok)
    (hs : s.comm.logNames.Ok) (k : Text) :
    (effective parseLevel h s l).comm.logNames.get k
      = innermost [h.comm.logNames.get k, s.comm.logNames.get k, l.comm.logNames.get k] :=
  C48_log_names_fails parseLevel h s l hh hs k

theorem server_names (h : HttpConf α β) (s : SrvConf α β) (hh : h.comm.logNames.Ok) (k : Text) :
    (SrvConf.fromHttp parseLevel h s).comm.logNames.get k = innermost [h.comm.logNames.get k, s.comm.logNames.get k] := by
  show (overwrite s.comm.logNames h.comm.logNames).get k = _
  exact overwrite_get _ _ hh k

/-- the tables have no name twice (in the code they are `HashMap`s) -/
def Tables (h : HttpConf α β) : Prop := ∀ c ∈ blocks h, c.logNames.Ok

theorem copied_names (h : HttpConf α β) (ht : Tables h) (k : Text) :
    (logNames (HttpConf.copyToChild parseLevel h)).get k = innermost ((blocks h).map (·.logNames.get k)) := by
  have hh : h.comm.logNames.Ok := ht _ (by simp [blocks])
  have hsv : ∀ s ∈ h.server, s.comm.logNames.Ok := fun s hs => ht _ (by
    refine List.mem_cons_of_mem _ (List.mem_flatMap.2 ⟨s, hs, by simp⟩))
  rw [logNames_blocks]
  unfold blocks
  rw [List.map_cons, List.map_cons]
  show innermost (h.comm.logNames.get k :: _) = _
  cases hk : h.comm.logNames.get k with
  | some v => rfl
  | none =>
    rw [innermost_none, innermost_none, List.map_flatMap, List.map_flatMap]
    have e : (HttpConf.copyToChild parseLevel h).server
        = h.server.map (SrvConf.fromHttp parseLevel { h with comm := h.comm.preDeal parseLevel }) := rfl
    rw [e, List.flatMap_map]
    clear e
    have hk' : (h.comm.preDeal parseLevel).logNames.get k = none := hk
    have key : ∀ s ∈ h.server, innermost (((SrvConf.fromHttp parseLevel { h with comm := h.comm.preDeal parseLevel } s).comm ::
        (SrvConf.fromHttp parseLevel { h with comm := h.comm.preDeal parseLevel } s).location.map (·.comm)).map
          (fun c => c.logNames.get k)) = innermost ((s.comm :: s.location.map (·.comm)).map (fun c => c.logNames.get k)) := by
      intro s hs
      have hok : ({ h with comm := h.comm.preDeal parseLevel } : HttpConf α β).comm.logNames.Ok := hh
      rw [List.map_cons, List.map_cons, server_names _ s hok k]
      show innermost (innermost [(h.comm.preDeal parseLevel).logNames.get k, s.comm.logNames.get k] :: _) = _
      rw [hk']
      rw [innermost_none]
      cases hs' : s.comm.logNames.get k with
      | some v => rfl
      | none =>
        rw [show innermost [(none : Option Text)] = none from rfl, innermost_none, innermost_none]
        have e2 : (SrvConf.fromHttp parseLevel { h with comm := h.comm.preDeal parseLevel } s).location
            = s.location.map (effective parseLevel h s) := rfl
        rw [e2, List.map_map, List.map_map, List.map_map]
        congr 1
        refine List.map_congr_left ?_
        intro l _
        show (effective parseLevel h s l).comm.logNames.get k = l.comm.logNames.get k
        rw [effective_names h s l hh (hsv s hs) k, hk, hs']
        cases l.comm.logNames.get k <;> rfl
    clear hk hk' ht hh hsv
    generalize SrvConf.fromHttp parseLevel { h with comm := h.comm.preDeal parseLevel } = F at key ⊢
    generalize h.server = ss at key ⊢
    induction ss with
    | nil => rfl
    | cons s ss ih =>
      rw [List.flatMap_cons, List.flatMap_cons, innermost_append, innermost_append, key s (by simp),
        ih (fun x hx => key x (by simp [hx]))]

theorem afterLoad_names (h : HttpConf α β) (ht : Tables h) (k : Text) :
    (logNames (afterLoad h)).get k = innermost ((blocks h).map (·.logNames.get k)) := by
  unfold afterLoad
  dsimp only
  split
  · exact copied_names h ht k
  · have := copied_names ({ h with comm := { h.comm with logFormat := h.comm.logFormat.put ("main".toList, mainFormat) } }) (by
      intro c hc
      unfold blocks at hc
      rcases List.mem_cons.1 hc with rfl | hc
      · exact ht h.comm (by simp [blocks])
      · exact ht c (List.mem_cons_of_mem _ hc)) k
    exact this

/-! ### the format named `main` -/

/-- the format of a log without a format -/
def mainLine : Text :=
  ("{d(%Y-%m-%d %H:%M:%S)} {client_ip} {l} {url} path:{path} query:{query} host:{host} status: {status} {up_status} referer: " ++
    "{referer} user_agent: {user_agent} cookie: {cookie}").toList

theorem loaded_main (h : HttpConf α β) (hh : h.comm.logFormat.Ok) (hs : ∀ s ∈ h.server, s.comm.logFormat.Ok) (s l)
    (h1 : s ∈ (afterLoad h).server) (h2 : l ∈ s.location) :
    (logOf l).formats.get "main".toList = some ((h.comm.logFormat.get "main".toList).getD mainLine) := by
  have key : ∀ h' : HttpConf α β, h'.server = h.server → h'.comm.logFormat.Ok → s ∈ (HttpConf.copyToChild parseLevel h').server →
      ∀ v, h'.comm.logFormat.get "main".toList = some v → (logOf l).formats.get "main".toList = some v := by
    intro h' he hok hs' v hv
    obtain ⟨s0, hs0, rfl⟩ := List.mem_map.1 hs'
    have e2 : (SrvConf.fromHttp parseLevel { h' with comm := h'.comm.preDeal parseLevel } s0).location
        = s0.location.map (effective parseLevel h' s0) := rfl
    rw [e2] at h2
    obtain ⟨l0, _, rfl⟩ := List.mem_map.1 h2
    show (effective parseLevel h' s0 l0).comm.logFormat.get _ = _
    rw [C48_log_format_fails parseLevel h' s0 l0 hok (hs s0 (he ▸ hs0)), hv]
    rfl
  unfold afterLoad at h1
  dsimp only at h1
  cases hm : h.comm.logFormat.get "main".toList with
  | some v =>
    rw [hm] at h1
    exact key h rfl hh h1 v hm
  | none =>
    rw [hm] at h1
    refine key { h with comm := { h.comm with logFormat := h.comm.logFormat.put ("main".toList, mainFormat) } } rfl
      (put_ok _ _ hh) h1 mainLine ?_
    show (Table.put _ _).get _ = _
    generalize "main".toList = k
    unfold Table.put Table.get
    simp
    rfl

/-- **C130**, partial (the format named `main`): it is the one that the http block gives, if it gives one; and there is one
    in any case. Missing: formats of this name in inner blocks, see the next theorem. -/
theorem C130_main_partial (h : HttpConf α β) (hh : h.comm.logFormat.Ok) (hs : ∀ s ∈ h.server, s.comm.logFormat.Ok) (s l)
    (h1 : s ∈ (afterLoad h).server) (h2 : l ∈ s.location) :
    (∀ t, h.comm.logFormat.get "main".toList = some t → (logOf l).formats.get "main".toList = some t) ∧
    (h.comm.logFormat.get "main".toList = none → (logOf l).formats.get "main".toList = some mainLine) := by
  have := loaded_main h hh hs s l h1 h2
  exact ⟨fun t ht => by rw [this, ht]; rfl, fun ht => by rw [this, ht]; rfl⟩

/-- **C130** fails for a format named `main` in a server or location block: it is never used, also when the http block gives
    none. -/
theorem C130_main_fails (h : HttpConf α β) (hh : h.comm.logFormat.Ok) (hs : ∀ s ∈ h.server, s.comm.logFormat.Ok)
    (hn : h.comm.logFormat.get "main".toList = none) (own : Text) (ho : own ≠ mainLine) (s l) (h1 : s ∈ (afterLoad h).server)
    (h2 : l ∈ s.location) : (logOf l).formats.get "main".toList ≠ some own := by
  rw [loaded_main h hh hs s l h1 h2, hn]
  intro he
  exact ho (Option.some.inj he).symm

example : let l : LocConf Unit Unit := ⟨anyRule [], none, [], none, none, [], { Common.new with logFormat := [("main".toList, "{path}".toList)] }⟩
    let h : HttpConf Unit Unit := ⟨[⟨[], none, [], [l], [], Common.new⟩], [], Common.new⟩
    h.comm.logFormat.Ok ∧ (∀ s ∈ h.server, s.comm.logFormat.Ok) ∧
    (afterLoad h).server.map (fun s => s.location.map fun l => (logOf l).formats.get "main".toList) = [[some mainLine]] := by
  refine ⟨List.nodup_nil, fun s hs => ?_, by decide +kernel⟩
  rw [List.mem_singleton.1 hs]
  exact List.nodup_nil

theorem innermost_all {γ : Type} (xs : List (Option γ)) (v : γ) (h : some v ∈ xs) (ho : ∀ x ∈ xs, x = none ∨ x = some v) :
    innermost xs = some v := by
  induction xs with
  | nil => cases h
  | cons x xs ih =>
    rcases ho x (by simp) with rfl | rfl
    · exact ih (by simpa using h) (fun y hy => ho y (by simp [hy]))
    · rfl

/-- **C130**, partial (which file): a log named in the configuration is opened with the text given for it, if all blocks that
    name it give the same text. Missing: different texts, see `C130_other_file_fails`. -/
theorem C130_file_partial (h : HttpConf α β) (ht : Tables h) (k t : Text) (c : Common) (hc : c ∈ blocks h)
    (hk : c.logNames.get k = some t) (hsame : ∀ d ∈ blocks h, d.logNames.get k = none ∨ d.logNames.get k = some t) :
    (logNames (afterLoad h)).get k = some t := by
  rw [afterLoad_names h ht k]
  refine innermost_all _ _ (List.mem_map.2 ⟨c, hc, hk⟩) ?_
  intro x hx
  obtain ⟨d, hd, rfl⟩ := List.mem_map.1 hx
  exact hsame d hd

/-- **C130** fails for different texts: a server that names a log like a server before it never gets the file it asks for;
    its lines go to the file of the first one (or of the http block, if that names it too). -/
theorem C130_other_file_fails (h : HttpConf α β) (ht : Tables h) (k t : Text) (s s' : SrvConf α β) (a b c : List (SrvConf α β))
    (hs : h.server = a ++ s :: b ++ s' :: c) (ha : ∀ x ∈ a, x.comm.logNames.get k = none ∧
      ∀ l ∈ x.location, l.comm.logNames.get k = none) (hh : h.comm.logNames.get k = none)
    (hk : s.comm.logNames.get k = some t) :
    (logNames (afterLoad h)).get k = some t := by
  rw [afterLoad_names h ht k]
  unfold blocks
  rw [List.map_cons, hh, hs, innermost_none]
  rw [List.append_assoc, List.flatMap_append, List.map_append, innermost_append]
  have e : innermost ((a.flatMap fun s => s.comm :: s.location.map (·.comm)).map (·.logNames.get k)) = none := by
    clear hs
    induction a with
    | nil => rfl
    | cons x a ih =>
      rw [List.flatMap_cons, List.map_append, innermost_append, ih (fun y hy => ha y (by simp [hy]))]
      have : innermost ((x.comm :: x.location.map (·.comm)).map (·.logNames.get k)) = none := by
        obtain ⟨h1, h2⟩ := ha x (by simp)
        rw [List.map_cons, h1, innermost_none]
        generalize x.location = ls at h2
        induction ls with
        | nil => rfl
        | cons l ls ih =>
          rw [List.map_cons, List.map_cons, h2 l (by simp)]
          exact ih (fun y hy => h2 y (by simp [hy]))
      rw [this]; rfl
  rw [e, List.cons_append, List.flatMap_cons, List.cons_append, List.map_cons, hk]
  rfl

/-- **C130** fails: a log file that cannot be opened — on starting as on reloading — is not reported as an error: the program
    panics. -/
theorem C130_unopened_fails (sys : System) (level : Option Cli.Level) (ds : Bool) (names : Table Text) (k path : Text)
    (hk : names.get k = some path) (hp : ' ' ∉ path) (ho : sys.opens path = false) :
    openLogs sys level ds names = .panic := by
  unfold openLogs
  dsimp only
  rw [if_neg]
  intro hc
  simp only [Bool.and_eq_true, List.all_eq_true] at hc
  have hm : (k, path) ∈ names := by
    unfold Table.get at hk
    cases hf : names.find? (fun e => e.1 = k) with
    | none => rw [hf] at hk; cases hk
    | some e =>
      rw [hf] at hk
      have h1 := List.find?_some hf
      have h2 := List.mem_of_find?_eq_some hf
      simp only [decide_eq_true_eq] at h1
      have : e = (k, path) := by
        cases e; simp only [Option.map_some, Option.some.injEq] at hk; simp_all
      exact this ▸ h2
  have := hc.1.1 ⟨k, (openText path).1, (openText path).2⟩ (List.mem_map.2 ⟨_, hm, rfl⟩)
  simp only [openText_plain path hp, ho] at this
  cases this

/-- **C130** fails: a level that does not exist in the text of a log is not rejected: the log shows info. -/
theorem C130_level_fails (sys : System) (level : Option Cli.Level) (ds : Bool) (names : Table Text) (g : Loggers)
    (h : openLogs sys level ds names = .ok g) (k path lv : Text) (hp : ' ' ∉ path) (hl : ' ' ∉ lv)
    (hbad : parseLevel lv = none) (hk : names.get k = some (path ++ ' ' :: lv)) (l : Reverse.Level) :
    g.dests k l = if l ∈ [.error, .warn, .info] then [.file path] else [] := by
  rw [dests_of h hk, openText_level _ _ hp hl, hbad]
  rfl

/-- the levels of records that the terminal shows -/
def onTerminal : Option Cli.Level → List Reverse.Level
  | none | some .trace => [.error, .warn, .info, .debug, .trace]
  | some .debug => [.error, .warn, .info, .debug]
  | some .info => [.error, .warn, .info]
  | some .warn => [.error, .warn]
  | some .error => [.error]
  | some .off => []

theorem splitOn_head (t : Text) : ∃ ps, splitOn (fun c => c = ' ') t = (t.takeWhile fun c => c ≠ ' ') :: ps ∧
    (ps = [] → (t.takeWhile fun c => c ≠ ' ') = t) := by
  induction t with
  | nil => exact ⟨[], rfl, fun _ => rfl⟩
  | cons c t ih =>
    obtain ⟨ps, h1, h2⟩ := ih
    by_cases hc : c = ' '
    · exact ⟨splitOn (fun c => c = ' ') t, by rw [splitOn, if_pos (by simp [hc])]; simp [hc], fun h => by rw [h1] at h; cases h⟩
    · refine ⟨ps, ?_, ?_⟩
      · rw [splitOn, if_neg (by simp [hc]), h1]; simp [hc]
      · intro h; simp [hc] at h2 ⊢; exact h2 h

theorem openText_path (t : Text) : (openText t).1 = t.takeWhile fun c => c ≠ ' ' := by
  obtain ⟨ps, h1, h2⟩ := splitOn_head t
  unfold openText
  rw [h1]
  cases ps with
  | nil => exact (h2 rfl).symm
  | cons l ps => rfl

/-- **C130** (opening) The logs are opened exactly if every file can be opened, every name is one that the logging library takes,
    and none is that of the terminal while the terminal is used; otherwise the program panics. (The file is the text up to the first
    space.) -/
theorem C130_opens (sys : System) (level : Option Cli.Level) (ds : Bool) (names : Table Text) :
    ((∃ g, openLogs sys level ds names = .ok g) ↔
      (∀ e ∈ names, sys.opens (e.2.takeWhile fun c => c ≠ ' ') = true ∧ sys.named e.1 = true) ∧
        (ds = true ∨ ∀ e ∈ names, e.1 ≠ "stdout".toList)) ∧
    ((∃ g, openLogs sys level ds names = .ok g) ∨ openLogs sys level ds names = .panic) := by
  simp only [← openText_path]
  unfold openLogs
  dsimp only
  constructor
  · constructor
    · rintro ⟨g, hg⟩
      split at hg
      · rename_i h
        simp only [Bool.and_eq_true, List.all_eq_true, Bool.or_eq_true, Bool.not_eq_true', List.any_eq_false,
          List.mem_map, forall_exists_index, and_imp, forall_apply_eq_imp_iff₂, decide_eq_true_eq] at h
        exact ⟨fun e he => ⟨h.1.1 e he, h.1.2 e he⟩, h.2⟩
      · cases hg
    · rintro ⟨h1, h2⟩
      rw [if_pos]
      · exact ⟨_, rfl⟩
      · simp only [Bool.and_eq_true, List.all_eq_true, Bool.or_eq_true, Bool.not_eq_true', List.any_eq_false,
          List.mem_map, forall_exists_index, and_imp, forall_apply_eq_imp_iff₂, decide_eq_true_eq]
        exact ⟨⟨fun e he => (h1 e he).1, fun e he => (h1 e he).2⟩, h2⟩
  · split
    · exact .inl ⟨_, rfl⟩
    · exact .inr rfl

/-- **C130** fails: an access log whose name no block explains is not rejected: its lines go to the terminal and the log
    `default`, if the level given on the command line shows them (without one, all are shown). -/
theorem C130_unknown_fails (sys : System) (level : Option Cli.Level) (ds : Bool) (names : Table Text) (g : Loggers)
    (h : openLogs sys level ds names = .ok g) (k : Text) (hk : names.get k = none) (hd : names.get "default".toList = none)
    (l : Reverse.Level) : g.dests k l = if ds = false ∧ l ∈ onTerminal level then [.stdout] else [] := by
  rw [openLogs_ok h]
  unfold Loggers.dests
  simp only [find_get, hk, Option.map_none]
  have hr : rank l ≤ rankFilter (level.getD .trace) ↔ l ∈ onTerminal level := by
    cases level with
    | none => cases l <;> decide
    | some v => cases v <;> cases l <;> decide
  rw [List.filter_eq_nil_iff.2]
  · by_cases hl : l ∈ onTerminal level
    · rw [if_pos (hr.2 hl)]; cases ds <;> simp [hl]
    · rw [if_neg (fun h => hl (hr.1 h)), if_neg (fun h => hl h.2)]
  · intro x hx
    have := find_get names "default".toList
    rw [hd, Option.map_none, List.find?_eq_none] at this
    exact this x hx

/-! ### C129: the lines of a request -/

theorem lines_none (g : Loggers) (line : Req → Text → Text) (logs : List LogOf) (trace : List Ev)
    (h : ∀ c ∈ logs, ∀ r, logAccess g (line r) c = []) : lines g line logs trace = [] := by
  unfold lines
  rw [List.flatMap_eq_nil_iff]
  intro e _
  unfold eventLines
  split
  · split
    · rename_i c hc
      exact h c (List.mem_of_getElem? hc) _
    · rfl
  · rfl

/-- **C130** fails for the default levels: an access log given without level, whose file is given without level, stays
    empty, whatever the requests: its lines have level trace, and the file shows info. -/
theorem C130_default_levels_fails (sys : System) (level : Option Cli.Level) (ds : Bool) (names : Table Text) (g : Loggers)
    (h : openLogs sys level ds names = .ok g) (k f path : Text) (hk0 : ' ' ∉ k) (hf : ' ' ∉ f) (hp : ' ' ∉ path)
    (hk : names.get k = some path) (a : LogTo) (ha : parseLog (k ++ ' ' :: f) = .ok a) (formats : Table Text)
    (line : Req → Text → Text) (logs : List LogOf) (hl : ∀ c ∈ logs, c = ⟨formats, some a⟩) (trace : List Ev) :
    lines g line logs trace = [] := by
  rw [(C134_meaning k f hk0 hf).2.1] at ha
  cases ha
  refine lines_none g line logs trace ?_
  intro c hc r
  rw [hl c hc]
  unfold logAccess
  dsimp only
  split
  · rfl
  · rw [(C130_record sys level ds names g h k path hp .trace).2 hk]
    rfl

/-- the logs of the locations of the only server of a subcommand -/
def cliLogs (c : Cli.OneHttp) : List LogOf := (afterLoad c.conf).server.flatMap fun s => s.location.map logOf

theorem cli_names (c : Cli.OneHttp) (p : Text) (hc : c.conf.comm.logNames = [("access".toList, p)]) (ht : Tables c.conf) :
    (logNames (afterLoad c.conf)).get "access".toList = some p := by
  rw [afterLoad_names _ ht]
  unfold blocks
  rw [List.map_cons, hc]
  rfl

/-- the settings of `file-server` and `reverse-proxy` with `--access-log p` -/
inductive WithLog (p : Text) : Cli.OneHttp → Prop where
  | files (a : Cli.FileServerArgs) (c : Cli.OneHttp) : a.accessLog = some p → Cli.fileServerConf a = some c → WithLog p c
  | reverse (a : Cli.ReverseArgs) : a.accessLog = some p → WithLog p (Cli.reverseConf a)

theorem ok0 : Table.Ok ([] : Table Text) := List.nodup_nil

theorem ok1 (p : Text) : Table.Ok [("access".toList, p)] := List.nodup_singleton _

theorem okf : Table.Ok [("main".toList, mainFormat)] := List.nodup_singleton _

theorem get1 (k t : Text) (r : List (Option Text)) : innermost (Table.get [(k, t)] k :: r) = some t := by
  simp [Table.get, innermost]

seal mainFormat in
theorem WithLog.facts {p : Text} {c : Cli.OneHttp} (h : WithLog p c) :
    (logNames (afterLoad c.conf)).get "access".toList = some p ∧ ∃ l, cliLogs c = [l] ∧
      l.access = some ⟨"access".toList, "main".toList, .trace⟩ ∧ l.formats.get "main".toList = some mainFormat := by
  cases h with
  | files a c ha hc =>
    unfold Cli.fileServerConf at hc
    split at hc
    · cases hc
    · cases hc
      rw [ha]
      refine ⟨cli_names _ p rfl ?_, _, rfl, ?_, ?_⟩
      · intro d hd
        have hd : d ∈ [Cli.withLog (some p) Common.new, (if a.listenSsl.isSome then { Common.new with domain := a.domain } else Common.new), Common.new] := hd
        simp only [List.mem_cons, List.not_mem_nil, or_false] at hd
        rcases hd with rfl | rfl | rfl
        · exact (ok1 p)
        · split <;> exact ok0
        · exact ok0
      · cases a.listenSsl <;> rfl
      · exact (C48_log_format_fails parseLevel _ _ _ okf (by cases a.listenSsl <;> exact ok0) _).trans (get1 _ _ _)
  | reverse a ha =>
    unfold cliLogs Cli.reverseConf
    rw [ha]
    refine ⟨cli_names _ p rfl ?_, _, rfl, rfl, (C48_log_format_fails parseLevel _ _ _ okf ok0 _).trans (get1 _ _ _)⟩
    intro d hd
    have hd : d ∈ [Cli.withLog (some p) Common.new, Common.new,
      { Common.new with proxyUrl := some (if a.tls then "https://server".toList else "http://server".toList) }] := hd
    simp only [List.mem_cons, List.not_mem_nil, or_false] at hd
    rcases hd with rfl | rfl | rfl
    · exact ok1 p
    · exact ok0
    · exact ok0

/-- **C130** fails on the command line: with `--access-log path` a file server or reverse proxy opens the file, and never
    writes a line to it, nor anywhere else. -/
theorem C130_command_line_fails (sys : System) (level : Option Cli.Level) (ds : Bool) (path : Text) (hp : ' ' ∉ path)
    (c : Cli.OneHttp) (hc : WithLog path c) (g : Loggers) (h : openLogs sys level ds (logNames (afterLoad c.conf)) = .ok g)
    (line : Req → Text → Text) (trace : List Ev) : lines g line (cliLogs c) trace = [] := by
  obtain ⟨hk, l, hl, ha, hf⟩ := hc.facts
  refine lines_none g line _ trace ?_
  intro x hx r
  rw [hl, List.mem_singleton] at hx
  subst hx
  unfold logAccess
  rw [ha]
  dsimp only
  rw [hf]
  dsimp only
  rw [(C130_record sys level ds _ g h "access".toList path hp .trace).2 hk]
  rfl

theorem mainFormat_text : mainFormat = "{d(%Y-%m-%d %H:%M:%S)} {client_ip} {l} {url} path:{path} query:{query} host:{host} status: {status} {up_status} referer: {referer} user_agent: {user_agent} cookie: {cookie}".toList := by
  decide +kernel

/-- **C130**, partial (command line): with `--access-log "path trace"` each request given to the file server or reverse proxy
    writes its line, in the default format. Missing: a path alone, see `C130_command_line_fails`. -/
theorem C130_command_line_partial (sys : System) (level : Option Cli.Level) (ds : Bool) (path : Text) (hp : ' ' ∉ path)
    (c : Cli.OneHttp) (hc : WithLog (path ++ " trace".toList) c) (g : Loggers)
    (h : openLogs sys level ds (logNames (afterLoad c.conf)) = .ok g) (line : Req → Text → Text) (req : Req) :
    lines g line (cliLogs c) [.handled 0 req false] =
      [(.file path, line req "{d(%Y-%m-%d %H:%M:%S)} {client_ip} {l} {url} path:{path} query:{query} host:{host} status: {status} {up_status} referer: {referer} user_agent: {user_agent} cookie: {cookie}".toList)] := by
  rw [← mainFormat_text]
  obtain ⟨hk, l, hl, ha, hf⟩ := hc.facts
  have hd := (C130_record sys level ds _ g h "access".toList path hp .trace).1 .trace "trace".toList ((parseLevel_iff _ _).1 (by decide +kernel)) (by decide) hk
  unfold lines
  rw [hl]
  show logAccess g (line req) l ++ [] = _
  unfold logAccess
  rw [ha]
  dsimp only
  rw [hf]
  dsimp only
  rw [hd]
  rfl

/-- the log of location `i` is written to `file`, in `format` -/
structure Writes (g : Loggers) (logs : List LogOf) (i : Nat) (file format : Text) : Prop where
  exist : ∃ c a, logs[i]? = some c ∧ c.access = some a ∧ c.formats.get a.format = some format ∧ g.dests a.name a.level = [.file file]

theorem Writes.lines {g : Loggers} {logs : List LogOf} {i : Nat} {file format : Text} (h : Writes g logs i file format)
    (line : Req → Text → Text) (req : Req) : eventLines g line logs (.handled i req false) = [(.file file, line req format)] := by
  obtain ⟨c, a, h1, h2, h3, h4⟩ := h.exist
  show (match logs[i]? with | some c => logAccess g (line req) c | none => []) = _
  rw [h1]
  unfold logAccess
  simp only [h2, h3, h4, List.map_cons, List.map_nil]

theorem handle_fresh (env : Env W) (i : Nat) (l : Loc) (req : Req) (s : St W) (hc : l.key ∉ s.cache) (hk : l.kind ≠ .nothing) :
    (handle env i l req s).1.trace = s.trace ++ [.handled i req false] := by
  unfold handle
  simp only
  rw [if_neg (by simpa using hc), if_neg hk]
  split
  · rfl
  · split <;> rfl

theorem handle_nothing (env : Env W) (i : Nat) (l : Loc) (req : Req) (s : St W) (hc : l.key ∉ s.cache) (hk : l.kind = .nothing) :
    (handle env i l req s).1.trace = s.trace := by
  unfold handle
  simp only
  rw [if_neg (by simpa using hc), if_pos hk]

/-- **C129**, partial: a request whose first matching location has an access log and no limit and no try list, admits the
    client, has something to serve and no kept upstream connection, writes exactly one line: its own, to that log.
    Missing: see the `_fails` theorems. -/
theorem C129_one_line_partial (env : Env W) (servers : List Server) (w : W) (cache : List (Rule × Option Text × Option Text))
    (req : Req) (srv : Server) (hsrv : selectServer (req.host.getD []) servers = some srv) (i : Nat) (l : Loc)
    (hfirst : IsFirst env srv.locs req i l) (hlim : l.limit = none) (hadm : Admitted env l req.clientIp) (htry : l.tryPaths = none)
    (hkind : l.kind ≠ .nothing) (hkept : l.key ∉ cache) (g : Loggers) (line : Req → Text → Text) (logs : List LogOf)
    (file format : Text) (hw : Writes g logs i file format) :
    ∃ s' o, operate env servers w cache req = some (s', o) ∧ lines g line logs s'.trace = [(.file file, line req format)] := by
  unfold operate
  rw [hsrv]
  simp only [dealMatch, findLoc_of_first hfirst, limitStep, hlim, access_of_admitted hadm, htry]
  refine ⟨(handle env i l req ⟨w, cache, [], [], [], req⟩).1, (handle env i l req ⟨w, cache, [], [], [], req⟩).2, rfl, ?_⟩
  have ht : (handle env i l req (⟨w, cache, [], [], [], req⟩ : St W)).1.trace = [.handled i req false] :=
    handle_fresh env i l req _ hkept hkind
  rw [ht]
  unfold lines
  rw [List.flatMap_cons, List.flatMap_nil, List.append_nil, hw.lines]

/-- **C129** (only its own) Whatever is written in handling a request was written by a location of the chosen server that
    admits the client and whose limit, if it has one, did not refuse: the line of the request in that location's format, to that
    location's log. -/
theorem C129_only (env : Env W) (servers : List Server) (w : W) (cache : List (Rule × Option Text × Option Text))
    (req : Req) (srv : Server) (hsrv : selectServer (req.host.getD []) servers = some srv) (s' : St W) (o : Out)
    (hop : operate env servers w cache req = some (s', o)) (g : Loggers) (line : Req → Text → Text) (logs : List LogOf)
    (d : Dest) (t : Text) (hd : (d, t) ∈ lines g line logs s'.trace) :
    ∃ a i r b l c log f, s'.trace = a ++ .handled i r false :: b ∧ srv.locs[i]? = some l ∧ Admitted env l req.clientIp ∧
      NotRefused i l req a ∧ logs[i]? = some c ∧ c.access = some log ∧ c.formats.get log.format = some f ∧
      d ∈ g.dests log.name log.level ∧ t = line r f := by
  obtain ⟨e, he, hd⟩ := List.mem_flatMap.1 hd
  obtain ⟨a, b, hab⟩ := List.append_of_mem he
  unfold eventLines at hd
  split at hd
  · rename_i i r
    split at hd
    · rename_i c hc
      unfold logAccess at hd
      split at hd
      · cases hd
      · rename_i log hlog
        split at hd
        · cases hd
        · rename_i f hf
          obtain ⟨d', hd', h⟩ := List.mem_map.1 hd
          simp only [Prod.mk.injEq] at h
          obtain ⟨l, h1, h2, h3⟩ := C46_handler_guarded env servers w cache req srv hsrv s' o hop a i r false b hab
          exact ⟨a, i, r, b, l, c, log, f, hab, h1, h2, h3, hc, hlog, hf, h.1 ▸ hd', h.2.symm⟩
    · cases hd
  · cases hd

/-- **C129** fails for kept connections: a request answered over the upstream connection of an earlier one — from the second
    request of a client's connection on — leaves no line in any log. -/
theorem C129_kept_fails (env : Env W) (servers : List Server) (w : W) (cache : List (Rule × Option Text × Option Text))
    (req : Req) (srv : Server) (hsrv : selectServer (req.host.getD []) servers = some srv) (i : Nat) (l : Loc)
    (hfirst : IsFirst env srv.locs req i l) (htry : l.tryPaths = none) (hkept : l.key ∈ cache) (s' : St W) (o : Out)
    (hop : operate env servers w cache req = some (s', o)) (g : Loggers) (line : Req → Text → Text) (logs : List LogOf) :
    lines g line logs s'.trace = [] := by
  unfold operate at hop
  rw [hsrv] at hop
  simp only [dealMatch, findLoc_of_first hfirst, htry] at hop
  have key : ∀ s : St W, s.cache = cache → (∀ e ∈ s.trace, eventLines g line logs e = []) →
      ∀ e ∈ (handle env i l req s).1.trace, eventLines g line logs e = [] := by
    intro s hc hs
    unfold handle
    simp only
    rw [if_pos (by simpa [hc] using hkept)]
    have hsn : ∀ e ∈ s.trace ++ [.handled i req true], eventLines g line logs e = [] := by
      intro e he
      rcases List.mem_append.1 he with he | he
      · exact hs e he
      · rw [List.mem_singleton.1 he]; rfl
    split
    · exact hs
    · exact hsn
    · exact hsn
    · exact hsn
  have hl := limitStep_keep env i l req (⟨w, cache, [], [], [], req⟩ : St W)
  have hl0 : ∀ e ∈ (limitStep env i l req (⟨w, cache, [], [], [], req⟩ : St W)).1.trace, eventLines g line logs e = [] := by
    rcases hl.2.2.2 with ht | ⟨d, ht⟩
    · rw [ht]; intro e he; cases he
    · rw [ht]; intro e he
      have he : e ∈ [Ev.limited i d] := he
      rw [List.mem_singleton.1 he]; rfl
  unfold lines
  rw [List.flatMap_eq_nil_iff]
  cases hr : limitStep env i l req (⟨w, cache, [], [], [], req⟩ : St W) with
  | mk s1 r =>
    rw [hr] at hop hl hl0
    cases r with
    | some r =>
      simp only [Option.some.injEq, Prod.mk.injEq] at hop
      exact hop.1 ▸ hl0
    | none =>
      simp only at hop
      split at hop
      · simp only [Option.some.injEq, Prod.mk.injEq] at hop
        exact hop.1 ▸ hl0
      · simp only [Option.some.injEq, Prod.mk.injEq] at hop
        exact hop.1 ▸ hl0
      · rw [Option.some.injEq] at hop
        have := key s1 hl.2.2.1 hl0
        rw [hop] at this
        exact this

/-- **C129** fails for refused requests: a request refused by the limit or for its address leaves no line in any log. -/
theorem C129_refused_fails (env : Env W) (servers : List Server) (w : W) (cache : List (Rule × Option Text × Option Text))
    (req : Req) (srv : Server) (hsrv : selectServer (req.host.getD []) servers = some srv) (i : Nat) (l : Loc)
    (hfirst : IsFirst env srv.locs req i l) (s' : St W) (o : Out) (hop : operate env servers w cache req = some (s', o))
    (hr : access env l req = .refuse ∨ ∃ z b t, l.limit = some (z, b) ∧ req.clientIp = some t ∧ (env.limit w z t b).1 = .refuse)
    (g : Loggers) (line : Req → Text → Text) (logs : List LogOf) : lines g line logs s'.trace = [] := by
  unfold operate at hop
  rw [hsrv] at hop
  simp only [dealMatch, findLoc_of_first hfirst] at hop
  have hl := (limitStep_keep env i l req (⟨w, cache, [], [], [], req⟩ : St W)).2.2.2
  have hl0 : ∀ e ∈ (limitStep env i l req (⟨w, cache, [], [], [], req⟩ : St W)).1.trace, eventLines g line logs e = [] := by
    rcases hl with ht | ⟨d, ht⟩
    · rw [ht]; intro e he; cases he
    · rw [ht]; intro e he
      have he : e ∈ [Ev.limited i d] := he
      rw [List.mem_singleton.1 he]; rfl
  have hn : (limitStep env i l req (⟨w, cache, [], [], [], req⟩ : St W)).2 = none → access env l req = .refuse := by
    intro h
    rcases hr with hr | ⟨z, b, t, h1, h2, h3⟩
    · exact hr
    · unfold limitStep at h
      rw [h1, h2] at h
      simp only [h3] at h
      cases h
  unfold lines
  rw [List.flatMap_eq_nil_iff]
  cases he : limitStep env i l req (⟨w, cache, [], [], [], req⟩ : St W) with
  | mk s1 r =>
    rw [he] at hop hl0 hn
    cases r with
    | some r =>
      simp only [Option.some.injEq, Prod.mk.injEq] at hop
      exact hop.1 ▸ hl0
    | none =>
      simp only [hn rfl, Option.some.injEq, Prod.mk.injEq] at hop
      exact hop.1 ▸ hl0

/-- **C129** fails for the answer: the line of a request is written before there is an answer, so that it is the same whatever
    the answer is; status, size and times in a log format never tell anything about it. -/
theorem C129_answer_fails (env : Env W) (fresh : W → Nat → Req → Option Response × W) (servers : List Server) (w : W)
    (cache : List (Rule × Option Text × Option Text)) (req : Req) (srv : Server)
    (hsrv : selectServer (req.host.getD []) servers = some srv) (i : Nat) (l : Loc) (hfirst : IsFirst env srv.locs req i l)
    (htry : l.tryPaths = none) (s₁ s₂ : St W) (o₁ o₂ : Out) (h₁ : operate env servers w cache req = some (s₁, o₁))
    (h₂ : operate { env with fresh := fresh } servers w cache req = some (s₂, o₂)) (g : Loggers) (line : Req → Text → Text)
    (logs : List LogOf) : lines g line logs s₁.trace = lines g line logs s₂.trace := by
  have hf2 : IsFirst { env with fresh := fresh } srv.locs req i l := by
    refine ⟨hfirst.1, ?_, ?_⟩
    · rw [← isMatch_iff]; exact (isMatch_iff env l req).2 hfirst.2.1
    · intro j l' hj hl' hc
      exact hfirst.2.2 j l' hj hl' ((isMatch_iff env l' req).1 ((isMatch_iff { env with fresh := fresh } l' req).2 hc))
  unfold operate at h₁ h₂
  rw [hsrv] at h₁ h₂
  simp only [dealMatch, findLoc_of_first hfirst, findLoc_of_first hf2, htry] at h₁ h₂
  have el : limitStep { env with fresh := fresh } i l req (⟨w, cache, [], [], [], req⟩ : St W) = limitStep env i l req ⟨w, cache, [], [], [], req⟩ := rfl
  have ea : Reverse.access { env with fresh := fresh } l req = Reverse.access env l req := rfl
  rw [el, ea] at h₂
  have eh : ∀ s : St W, (handle env i l req s).1.trace = (handle { env with fresh := fresh } i l req s).1.trace := by
    intro s
    by_cases hc : l.key ∈ s.cache
    · unfold handle
      simp only
      rw [if_pos (by simpa using hc), if_pos (by simpa using hc)]
    · by_cases hk : l.kind = .nothing
      · rw [handle_nothing env i l req s hc hk, handle_nothing { env with fresh := fresh } i l req s hc hk]
      · rw [handle_fresh env i l req s hc hk, handle_fresh { env with fresh := fresh } i l req s hc hk]
  cases he : limitStep env i l req (⟨w, cache, [], [], [], req⟩ : St W) with
  | mk s1 r =>
    rw [he] at h₁ h₂
    cases r with
    | some r =>
      simp only [Option.some.injEq, Prod.mk.injEq] at h₁ h₂
      rw [← h₁.1, ← h₂.1]
    | none =>
      simp only at h₁ h₂
      cases ha : Reverse.access env l req with
      | err => rw [ha] at h₁ h₂; simp only [Option.some.injEq, Prod.mk.injEq] at h₁ h₂; rw [← h₁.1, ← h₂.1]
      | refuse => rw [ha] at h₁ h₂; simp only [Option.some.injEq, Prod.mk.injEq] at h₁ h₂; rw [← h₁.1, ← h₂.1]
      | pass =>
        rw [ha] at h₁ h₂
        simp only [Option.some.injEq] at h₁ h₂
        have := eh s1
        rw [h₁, h₂] at this
        rw [this]

/-- **C129** fails with try lists: one request may write any number of lines. Here the only location takes every path, and its
    handler answers every path of its try list with 404: there is a line for every path of the list. -/
theorem C129_many_fails (env : Env W) (name : Text) (l : Loc) (req : Req) (w : W) (n : Nat) (v : Text) (status : Nat)
    (htry : l.tryPaths = some (List.replicate n v, status)) (hlim : l.limit = none) (hkind : l.kind = .plain)
    (hacc : ∀ p, Accepts env l.rule { req with path := p }) (hadm : ∀ p, access env l { req with path := p } = .pass)
    (hf : ∀ w i r, env.fresh w i r = (some ⟨404, []⟩, w)) (g : Loggers) (line : Req → Text → Text) (c : LogOf)
    (file format : Text) (hw : Writes g [c] 0 file format) :
    ∃ s' o, operate env [⟨name, [l]⟩] w [] req = some (s', o) ∧
      lines g line [c] s'.trace = List.replicate n (.file file, line { req with path := env.format req v } format) := by
  have hfind : ∀ p, findLoc env [] { req with path := p } [l] 0 = some (0, l) := by
    intro p
    exact findLoc_of_first ⟨rfl, hacc p, by intro j l' hj; omega⟩
  have hgo : ∀ (s : St W), s.tryDeals = [0] → s.cache = [] → (∃ p, s.now = { req with path := p }) →
      ∃ s', dealMatch env [l] 1 { s with deals := [], now := s.next env req.path v } (s.next env req.path v)
          = some (s', .resp ⟨404, []⟩) ∧
        s'.tryDeals = [0] ∧ s'.cache = [] ∧ (∃ p, s'.now = { req with path := p }) ∧ s'.trace = s.trace ++ [.handled 0 { req with path := env.format req v } false] := by
    rintro s ht hc ⟨p, hp⟩
    have hnext : s.next env req.path v = { req with path := env.format req v } := by rw [St.next, hp]
    rw [hnext]
    obtain ⟨w0, ca, de, td, tr, nw⟩ := s
    dsimp only at ht hc
    subst ht; subst hc
    refine ⟨⟨w0, [], [0], [0], tr ++ [.handled 0 { req with path := env.format req v } false],
      { req with path := env.format req v }⟩, ?_, rfl, rfl, ⟨_, rfl⟩, rfl⟩
    have hlt : limitStep env 0 l { req with path := env.format req v }
        (⟨w0, [], [], [0], tr, { req with path := env.format req v }⟩ : St W)
        = (⟨w0, [], [], [0], tr, { req with path := env.format req v }⟩, none) := by
      unfold limitStep; rw [hlim]
    rw [dealMatch]
    simp only [hfind, hlt, hadm, htry]
    simp [handle, hkind, hf]
  have hlist : ∀ (m : Nat) (s : St W), s.tryDeals = [0] → s.cache = [] → (∃ p, s.now = { req with path := p }) →
      ∃ s', tryList env (dealMatch env [l] 1) req status (List.replicate m v) s = some (s', .resp ⟨status, []⟩) ∧
        s'.trace = s.trace ++ List.replicate m (.handled 0 { req with path := env.format req v } false) := by
    intro m
    induction m with
    | zero => intro s _ _ _; exact ⟨s, rfl, by simp⟩
    | succ m ih =>
      intro s ht hc hp
      obtain ⟨s1, h1, h2, h3, h3', h4⟩ := hgo s ht hc hp
      obtain ⟨s2, h5, h6⟩ := ih s1 h2 h3 h3'
      refine ⟨s2, ?_, ?_⟩
      · rw [List.replicate_succ, tryList]
        dsimp only [St.next] at h1 ⊢
        rw [h1]
        exact h5
      · rw [h6, h4, List.replicate_succ, List.append_assoc]; rfl
  obtain ⟨s2, h5, h6⟩ := hlist n ⟨w, [], [], [0], [.tries 0], req⟩ rfl rfl ⟨req.path, rfl⟩
  refine ⟨s2, .resp ⟨status, []⟩, ?_, ?_⟩
  · unfold operate
    show dealMatch env [l] 2 ⟨w, [], [], [], [], req⟩ req = _
    have hlt : limitStep env 0 l req (⟨w, [], [], [], [], req⟩ : St W) = (⟨w, [], [], [], [], req⟩, none) := by
      unfold limitStep; rw [hlim]
    rw [dealMatch]
    have h0 := hfind req.path
    have h1 := hadm req.path
    simp only [h0, h1, hlt, htry]
    exact h5
  · rw [h6]
    unfold lines
    rw [List.flatMap_append]
    show [] ++ _ = _
    rw [List.nil_append]
    clear h5 h6 hlist htry
    induction n with
    | zero => rfl
    | succ n ih => rw [List.replicate_succ, List.replicate_succ, List.flatMap_cons, hw.lines, ih]; rfl

/-- **C130** fails: an access log whose format no block explains writes nothing, and is not rejected. -/
theorem C130_format_fails (g : Loggers) (line : Req → Text → Text) (logs : List LogOf) (trace : List Ev)
    (h : ∀ c ∈ logs, ∀ a, c.access = some a → c.formats.get a.format = none) : lines g line logs trace = [] := by
  refine lines_none g line logs trace ?_
  intro c hc r
  unfold logAccess
  split
  · rfl
  · rename_i a ha
    rw [h c hc a ha]

section Examples

/-- an http block with an access log, explained in its only server -/
def exConf : HttpConf Unit Unit :=
  { server := [{ upName := [], root := none, headers := [], upstream := []
                 location := [⟨anyRule ['/'], none, [], none, none, [], Common.new⟩]
                 comm := { Common.new with logNames := [("acc".toList, "a.log debug".toList)] } }]
    upstream := []
    comm := { Common.new with accessLog := some ⟨"acc".toList, "f".toList, .info⟩, logFormat := [("f".toList, "{path}".toList)] } }

def exSys : System := ⟨fun _ => true, fun _ => true⟩

example : Tables exConf := by
  intro c hc
  have : c ∈ [exConf.comm, { Common.new with logNames := [("acc".toList, "a.log debug".toList)] }, Common.new] := hc
  simp only [List.mem_cons, List.not_mem_nil, or_false] at this
  rcases this with rfl | rfl | rfl
  · exact ok0
  · exact List.nodup_singleton _
  · exact ok0

example : openLogs exSys none false (logNames (afterLoad exConf))
    = .ok ⟨[⟨"acc".toList, "a.log".toList, .debug⟩], .trace, true⟩ := by decide +kernel

example : Writes ⟨[⟨"acc".toList, "a.log".toList, .debug⟩], .trace, true⟩
    ((afterLoad exConf).server.flatMap fun s => s.location.map logOf) 0 "a.log".toList "{path}".toList :=
  ⟨⟨_, _, rfl, rfl, by decide +kernel, by decide +kernel⟩⟩

/-- the whole way of a request: one line -/
example : ((operate demoEnv [⟨[], [plainLoc ['/']]⟩] () [] (demoReq ['/'] (some ['x']))).map fun x =>
    lines ⟨[⟨"acc".toList, "a.log".toList, .debug⟩], .trace, true⟩ (fun r _ => r.path)
      ((afterLoad exConf).server.flatMap fun s => s.location.map logOf) x.1.trace)
    = some [(.file "a.log".toList, ['/'])] := by decide +kernel

example : WithLog "x".toList (Cli.reverseConf ⟨[], ⟨.v4 0, 80⟩, [], some "x".toList, false, false⟩) := .reverse _ rfl

def exLog : LogOf := ⟨[("f".toList, "{path}".toList)], some ⟨"acc".toList, "f".toList, .info⟩⟩
def exG : Loggers := ⟨[⟨"acc".toList, "a.log".toList, .debug⟩], .trace, true⟩

/-- three lines for one request -/
example : ((operate { demoEnv with fresh := fun w _ _ => (some ⟨404, []⟩, w) }
      [⟨[], [{ plainLoc ['/'] with rule := ⟨none, none, none, none, none, none⟩, tryPaths := some (List.replicate 3 ['/', 'i'], 403) }]⟩]
      () [] (demoReq ['/'] (some ['x']))).map fun x => (lines exG (fun r _ => r.path) [exLog] x.1.trace).length) = some 3 := by
  decide +kernel

/-- a refused address, and the second request over a kept connection: no line -/
example : ((operate demoEnv [⟨[], [{ plainLoc ['/'] with deny := some [⟨.v4 0x0A000000#32, 8⟩] }]⟩] () []
      (demoReq ['/'] (some ['x']))).map fun x => (x.2, lines exG (fun r _ => r.path) [exLog] x.1.trace)) = some (.resp ⟨503, []⟩, []) := by
  decide +kernel
example : let l := { plainLoc ['/'] with kind := .proxy }
    ((operate demoEnv [⟨[], [l]⟩] () [l.key] (demoReq ['/'] none)).map fun x => lines exG (fun r _ => r.path) [exLog] x.1.trace) = some [] ∧
    ((operate demoEnv [⟨[], [l]⟩] () [] (demoReq ['/'] none)).map fun x => lines exG (fun r _ => r.path) [exLog] x.1.trace)
      = some [(.file "a.log".toList, ['/'])] := by
  decide +kernel

end Examples

end Wm.Access
