import Verif.Model.Listing
import Verif.Props.FilesMore
/-! Properties C146 (entries of a directory page), C147 (its links), C148 (names as text), C149 (what is not served). -/
namespace Wm.Files
open Wm

/-! ### specification -/

/-- the names a directory has: not empty, without slash, not `.` or `..` -/
def NamesOk (e : Fs) : Prop := ∀ d, ∀ n ∈ e.entries d, n ≠ [] ∧ '/' ∉ n ∧ n ≠ ['.'] ∧ n ≠ ['.', '.']

/-- one of the configured texts hides the path -/
def Hidden (f : FileSrv) (p : Text) : Prop := ∃ x ∈ f.hide, x <:+: p

/-- `t` tells the size `l`: a number and a unit, rounded down; below 1024 unless the unit is the largest -/
def Tells (t : Text) (l : Nat) : Prop :=
  ∃ n u k, t = showNat n ++ [u] ∧ (u, k) ∈ [('B', 1), ('K', 1024), ('M', 1024 * 1024), ('G', 1024 * 1024 * 1024)] ∧
    n * k ≤ l ∧ l < (n + 1) * k ∧ (u ≠ 'B' → n ≠ 0) ∧ (u ≠ 'G' → n < 1024)

/-- the system takes paths with the same components for the same -/
def SamePaths (e : Fs) : Prop := ∀ p q, comps p = comps q → e.isDir p = e.isDir q ∧ e.ex p = e.ex q

/-- what a client asks for when a link is followed: the link up to a `?` or `#` -/
def asked (link : Text) : Text := link.takeWhile (fun c => c ≠ '?' ∧ c ≠ '#')

/-! ### paths -/

theorem segs_noSlash (p : Text) : ∀ s ∈ segs p, '/' ∉ s := by
  induction p with
  | nil => intro s hs; simp [segs, splitOn] at hs; subst hs; exact List.not_mem_nil
  | cons c r ih =>
    intro s hs
    unfold segs at hs ih
    rw [splitOn] at hs
    split at hs
    · rcases List.mem_cons.1 hs with rfl | hs
      · exact List.not_mem_nil
      · exact ih s hs
    · rename_i hc
      split at hs
      · rename_i x xs hx
        rcases List.mem_cons.1 hs with rfl | hs
        · intro hm
          rcases List.mem_cons.1 hm with rfl | hm
          · exact hc (by simp)
          · exact ih x (hx ▸ List.mem_cons_self) hm
        · exact ih s (hx ▸ List.mem_cons_of_mem _ hs)
      · rcases List.mem_cons.1 hs with rfl | hs
        · intro hm
          rcases List.mem_cons.1 hm with rfl | hm
          · exact hc (by simp)
          · cases hm
        · cases hs

theorem segs_single {s : Text} (h : '/' ∉ s) : segs s = [s] := by
  obtain ⟨ss, l, h1, h2⟩ := splitOn_append_tail (· == '/') [] s (by
    intro c hc
    simp only [beq_eq_false_iff_ne]
    rintro rfl
    exact h hc)
  have h3 : ss = [] ∧ l = [] := by
    cases ss with
    | nil => simp [splitOn] at h1; exact ⟨rfl, h1⟩
    | cons a b => simp [splitOn] at h1
  rw [h3.1, h3.2] at h2
  exact h2

theorem segs_joinSegs (l : List Text) (hne : l ≠ []) (h : ∀ s ∈ l, '/' ∉ s) : segs (joinSegs l) = l := by
  induction l with
  | nil => exact absurd rfl hne
  | cons s t ih =>
    cases t with
    | nil => exact segs_single (h s List.mem_cons_self)
    | cons u v =>
      rw [joinSegs, segs_append, segs_single (h s List.mem_cons_self),
        ih (by simp) (fun x hx => h x (List.mem_cons_of_mem _ hx))]
      · rfl
      · simp

theorem dropWhile_comps (l : List Text) :
    (l.dropWhile (fun s => segComp s = none)).filterMap segComp = l.filterMap segComp := by
  induction l with
  | nil => rfl
  | cons s t ih =>
    by_cases hs : segComp s = none
    · rw [List.dropWhile_cons_of_pos (by simp [hs]), List.filterMap_cons_none hs, ih]
    · rw [List.dropWhile_cons_of_neg (by simp [hs])]

theorem dropComps_append (a b : List Text) :
    dropComps (a.filterMap segComp).length (a ++ b) = b.dropWhile (fun s => segComp s = none) := by
  induction a with
  | nil => simp [dropComps]
  | cons s t ih =>
    cases hs : segComp s with
    | none =>
      rw [List.filterMap_cons_none hs, List.cons_append]
      cases hk : (t.filterMap segComp).length with
      | zero =>
        rw [hk] at ih
        rw [dropComps] at ih ⊢
        rw [List.dropWhile_cons_of_pos (by simp [hs]), ih]
      | succ k =>
        rw [hk] at ih
        rw [dropComps, if_pos hs, ih]
    | some c =>
      rw [List.filterMap_cons_some hs, List.cons_append, List.length_cons, dropComps, if_neg (by simp [hs]), ih]

/-- what is left of a path below the root -/
def rest (g : Text) : Text := joinSegs ((segs g).dropWhile (fun s => segComp s = none))

theorem stripPath_below (r g : Text) (hr : r ≠ []) : stripPath (r ++ '/' :: g) r = some (rest g) := by
  unfold stripPath
  have h1 : startsWithPath (r ++ '/' :: g) r = true := by
    have := C49_check_fails r ('/' :: g) hr
    simpa [withSlash] using this
  rw [if_pos h1, segs_append, dropComps_append]
  rfl

theorem rest_comps (g : Text) : (segs (rest g)).filterMap segComp = (segs g).filterMap segComp := by
  unfold rest
  by_cases h : (segs g).dropWhile (fun s => segComp s = none) = []
  · rw [h]
    have h2 := dropWhile_comps (segs g)
    rw [h] at h2
    rw [← h2]
    rfl
  · rw [segs_joinSegs _ h, dropWhile_comps]
    intro s hs
    exact segs_noSlash g s ((List.dropWhile_suffix _).subset hs)

theorem joinPath_below (r g n : Text) (hn : n.head? ≠ some '/') : ∃ g', joinPath (r ++ '/' :: g) n = r ++ '/' :: g' := by
  unfold joinPath
  rw [if_neg hn]
  split
  · exact ⟨g ++ n, by simp⟩
  · exact ⟨g ++ '/' :: n, by simp⟩

/-- a page is only made for a directory written below the root -/
theorem listing_dir {e : Fs} {f : FileSrv} {path dir : Text} {accept : Option Text} {shown : List Text}
    {rate : Option Text} (hidx : ∀ i ∈ f.index, i.head? ≠ some '/')
    (h : dealRequest e f path accept = .listing dir shown rate) :
    ∃ g x, dir = rootOf e f ++ '/' :: g ∧ stripPrefix f.pfx (decoded e path) = some x := by
  unfold dealRequest at h
  split at h
  · cases h
  split at h
  · cases h
  split at h
  · cases h
  rename_i x hx
  simp only at h
  split at h
  · cases h
  split at h
  · split at h
    · cases h
    · injection h with h1 _ _
      have hw : ∃ y, rootOf e f ++ withSlash x = rootOf e f ++ '/' :: y := by
        unfold withSlash
        split
        · rename_i hh
          cases x with
          | nil => cases hh
          | cons c r => injection hh with hh; subst hh; exact ⟨r, rfl⟩
        · exact ⟨x, rfl⟩
      obtain ⟨y, hy⟩ := hw
      rw [hy] at h1
      subst h1
      unfold withIndex
      split
      · split
        · rename_i i hi
          obtain ⟨g', hg'⟩ := joinPath_below (rootOf e f) y i (hidx i (List.mem_of_find?_eq_some hi))
          exact ⟨g', x, hg', hx⟩
        · exact ⟨y, x, rfl, hx⟩
      · exact ⟨y, x, rfl, hx⟩
  · split at h
    · cases h
    · unfold byFile at h
      split at h
      · cases h
      · split at h <;> cases h

theorem mapM_some {α β : Type} (g : α → Option β) (k : α → β) (l : List α) (h : ∀ a ∈ l, g a = some (k a)) :
    l.mapM g = some (l.map k) := by
  induction l with
  | nil => rfl
  | cons a t ih =>
    rw [List.mapM_cons, h a List.mem_cons_self, ih (fun b hb => h b (List.mem_cons_of_mem _ hb))]
    rfl

theorem head_noSlash {n : Text} (h : '/' ∉ n) : n.head? ≠ some '/' := by
  intro hh
  exact h (List.mem_of_mem_head? hh)

/-- the line of an entry -/
def rowOf (e : Fs) (len : Text → Option Nat) (f : FileSrv) (dir n g : Text) : Row :=
  { folder := e.isDir (joinPath dir n)
    size := if e.isDir (joinPath dir n) then [] else ((len (joinPath dir n)).map sizeText).getD []
    link := f.pfx ++ '/' :: (rest g).map (fun c => if c = '\\' then '/' else c)
    name := n }

theorem entryRow_below {e : Fs} {f : FileSrv} {dir n g : Text} (len : Text → Option Nat) (hr : rootOf e f ≠ [])
    (h : joinPath dir n = rootOf e f ++ '/' :: g) : entryRow e len f dir n = some (rowOf e len f dir n g) := by
  unfold entryRow rowOf
  rw [h, stripPath_below _ _ hr]
  rfl

/-- the part of the path of an entry after the root -/
def below? (r p : Text) : Text := p.drop (r.length + 1)

theorem below?_eq {r p g : Text} (h : p = r ++ '/' :: g) : below? r p = g := by
  subst h
  unfold below?
  rw [show r ++ '/' :: g = (r ++ ['/']) ++ g by simp, List.drop_left' (by simp)]

/-- the line of the entry `n` of `dir` -/
def lineOf (e : Fs) (len : Text → Option Nat) (f : FileSrv) (dir n : Text) : Row :=
  rowOf e len f dir n (below? (rootOf e f) (joinPath dir n))

/-- the page for a directory -/
theorem page_rows {e : Fs} {f : FileSrv} {path dir : Text} {accept : Option Text} {shown : List Text}
    {rate : Option Text} (len : Text → Option Nat) (hn : NamesOk e) (hr : rootOf e f ≠ [])
    (hidx : ∀ i ∈ f.index, i.head? ≠ some '/') (h : dealRequest e f path accept = .listing dir shown rate) :
    ∃ pg, page e len f path accept = some pg ∧
      pg.rows = (((e.entries dir).filter (fun n => !isHide f (joinPath dir n))).map (lineOf e len f dir)).filter (·.folder) ++
        (((e.entries dir).filter (fun n => !isHide f (joinPath dir n))).map (lineOf e len f dir)).filter
          (fun r => !r.folder) := by
  obtain ⟨g, x, hd, hx⟩ := listing_dir hidx h
  have hm : ((e.entries dir).filter (fun n => !isHide f (joinPath dir n))).mapM (entryRow e len f dir) =
      some (((e.entries dir).filter (fun n => !isHide f (joinPath dir n))).map (lineOf e len f dir)) := by
    refine mapM_some _ _ _ ?_
    intro n hmem
    obtain ⟨g', hg'⟩ := joinPath_below (rootOf e f) g n (head_noSlash (hn dir n (List.mem_filter.1 hmem).1).2.1)
    rw [← hd] at hg'
    rw [entryRow_below len hr hg']
    unfold lineOf
    rw [below?_eq hg']
  refine ⟨⟨withSlash x, _⟩, ?_, rfl⟩
  unfold page
  rw [h, hx]
  simp only
  unfold pageRows
  rw [hm]
  rfl

theorem isHide_iff (f : FileSrv) (p : Text) : isHide f p = true ↔ Hidden f p := by
  unfold isHide Hidden
  rw [List.any_eq_true]
  constructor
  · rintro ⟨x, hx, h⟩; exact ⟨x, hx, (containsText_iff p x).1 h⟩
  · rintro ⟨x, hx, h⟩; exact ⟨x, hx, (containsText_iff p x).2 h⟩

theorem div_tells (l k : Nat) (hk : 0 < k) : l / k * k ≤ l ∧ l < (l / k + 1) * k := by
  refine ⟨Nat.div_mul_le_self l k, ?_⟩
  rw [Nat.add_mul, Nat.one_mul, Nat.mul_comm]
  exact Nat.lt_mul_div_succ l hk

theorem sizeText_tells (l : Nat) : Tells (sizeText l) l := by
  unfold sizeText
  split
  · exact ⟨l, 'B', 1, rfl, .head _, by omega, by omega, by simp, fun _ => by assumption⟩
  split
  · obtain ⟨h1, h2⟩ := div_tells l 1024 (by omega)
    have h3 : l / 1024 ≠ 0 := by omega
    have h4 : l / 1024 < 1024 := by omega
    exact ⟨_, 'K', _, rfl, .tail _ (.head _), h1, h2, fun _ => h3, fun _ => h4⟩
  split
  · obtain ⟨h1, h2⟩ := div_tells l (1024 * 1024) (by omega)
    have h3 : l / (1024 * 1024) ≠ 0 := by omega
    have h4 : l / (1024 * 1024) < 1024 := by omega
    exact ⟨_, 'M', _, rfl, .tail _ (.tail _ (.head _)), h1, h2, fun _ => h3, fun _ => h4⟩
  · obtain ⟨h1, h2⟩ := div_tells l (1024 * 1024 * 1024) (by omega)
    have h3 : l / (1024 * 1024 * 1024) ≠ 0 := by omega
    exact ⟨_, 'G', _, rfl, .tail _ (.tail _ (.tail _ (.head _))), h1, h2, fun _ => h3, fun h => absurd rfl h⟩

theorem count_rows {e : Fs} {len : Text → Option Nat} {f : FileSrv} {dir : Text} (l : List Text) (n : Text) :
    ((((l.map (lineOf e len f dir)).filter (·.folder)) ++
      ((l.map (lineOf e len f dir)).filter (fun r => !r.folder))).map (·.name)).count n = l.count n := by
  rw [List.map_append, List.count_append]
  induction l with
  | nil => rfl
  | cons m t ih =>
    have hname : (lineOf e len f dir m).name = m := rfl
    rw [List.map_cons, List.count_cons]
    cases hf : (lineOf e len f dir m).folder
    · rw [List.filter_cons_of_neg (by simp [hf]), List.filter_cons_of_pos (by simp [hf]), List.map_cons, List.count_cons,
        hname]
      omega
    · rw [List.filter_cons_of_pos (by simp [hf]), List.filter_cons_of_neg (by simp [hf]), List.map_cons, List.count_cons,
        hname]
      omega

/-- **C146** (the page) A request answered with a directory page gets every entry that is not hidden, each exactly once, and no
    hidden one; folders come before files, and every file is shown with its size. -/
theorem C146_page (e : Fs) (len : Text → Option Nat) (f : FileSrv) (path : Text) (accept : Option Text) (dir : Text)
    (shown : List Text) (rate : Option Text) (hn : NamesOk e) (hr : rootOf e f ≠ [])
    (hidx : ∀ i ∈ f.index, i.head? ≠ some '/') (h : dealRequest e f path accept = .listing dir shown rate) :
    ∃ pg, page e len f path accept = some pg ∧
      (∀ n, Hidden f (joinPath dir n) → n ∉ pg.rows.map (·.name)) ∧
      (∀ n, ¬ Hidden f (joinPath dir n) → (pg.rows.map (·.name)).count n = (e.entries dir).count n) ∧
      ∃ folders files, pg.rows = folders ++ files ∧
        (∀ r ∈ folders, e.isDir (joinPath dir r.name) = true ∧ r.size = []) ∧
        (∀ r ∈ files, e.isDir (joinPath dir r.name) = false ∧ ∀ l, len (joinPath dir r.name) = some l → Tells r.size l) := by
  obtain ⟨pg, h1, h2⟩ := page_rows len hn hr hidx h
  refine ⟨pg, h1, ?_, ?_, _, _, h2, ?_, ?_⟩
  · intro n hh hmem
    rw [h2, ← List.count_pos_iff, count_rows, List.count_pos_iff, List.mem_filter, (isHide_iff _ _).2 hh] at hmem
    exact absurd hmem.2 (by simp)
  · intro n hh
    rw [h2, count_rows, List.count_filter]
    have : isHide f (joinPath dir n) = false := by
      cases hc : isHide f (joinPath dir n)
      · rfl
      · exact absurd ((isHide_iff _ _).1 hc) hh
    simp [this]
  · intro r hrow
    obtain ⟨hm, hf⟩ := List.mem_filter.1 hrow
    obtain ⟨n, _, rfl⟩ := List.mem_map.1 hm
    have hf' : e.isDir (joinPath dir n) = true := hf
    refine ⟨hf', ?_⟩
    show (if e.isDir (joinPath dir n) then [] else _) = []
    rw [if_pos hf']
  · intro r hrow
    obtain ⟨hm, hf⟩ := List.mem_filter.1 hrow
    obtain ⟨n, _, rfl⟩ := List.mem_map.1 hm
    have hf' : e.isDir (joinPath dir n) = false := by
      have : (!e.isDir (joinPath dir n)) = true := hf
      simpa using this
    refine ⟨hf', ?_⟩
    intro l hl
    have hl' : len (joinPath dir n) = some l := hl
    have : (lineOf e len f dir n).size = sizeText l := by
      show (if e.isDir (joinPath dir n) then [] else _) = _
      rw [hf', hl']
      rfl
    rw [this]
    exact sizeText_tells l

/-! ### C147: links -/

theorem joinSegs_mem {l : List Text} {c : Char} (h : c ∈ joinSegs l) : c = '/' ∨ ∃ s ∈ l, c ∈ s := by
  induction l with
  | nil => cases h
  | cons s t ih =>
    cases t with
    | nil => exact .inr ⟨s, List.mem_cons_self, h⟩
    | cons u v =>
      rw [joinSegs] at h
      · rcases List.mem_append.1 h with h | h
        · exact .inr ⟨s, List.mem_cons_self, h⟩
        · rcases List.mem_cons.1 h with h | h
          · exact .inl h
          · rcases ih h with h | ⟨x, hx, hc⟩
            · exact .inl h
            · exact .inr ⟨x, List.mem_cons_of_mem _ hx, hc⟩
      · simp

theorem segs_mem {p s : Text} {c : Char} (hs : s ∈ segs p) (hc : c ∈ s) : c ∈ p := by
  induction p generalizing s with
  | nil => simp [segs, splitOn] at hs; subst hs; cases hc
  | cons d r ih =>
    unfold segs at hs ih
    rw [splitOn] at hs
    split at hs
    · rcases List.mem_cons.1 hs with rfl | hs
      · cases hc
      · exact List.mem_cons_of_mem _ (ih hs hc)
    · split at hs
      · rename_i x xs hx
        rcases List.mem_cons.1 hs with rfl | hs
        · rcases List.mem_cons.1 hc with rfl | hc
          · exact List.mem_cons_self
          · exact List.mem_cons_of_mem _ (ih (hx ▸ List.mem_cons_self) hc)
        · exact List.mem_cons_of_mem _ (ih (hx ▸ List.mem_cons_of_mem _ hs) hc)
      · rcases List.mem_cons.1 hs with rfl | hs
        · rcases List.mem_cons.1 hc with rfl | hc
          · exact List.mem_cons_self
          · cases hc
        · cases hs

theorem rest_mem {g : Text} {c : Char} (h : c ∈ rest g) : c = '/' ∨ c ∈ g := by
  rcases joinSegs_mem h with h | ⟨s, hs, hc⟩
  · exact .inl h
  · exact .inr (segs_mem ((List.dropWhile_suffix _).subset hs) hc)

theorem takeWhile_all {q : Char → Bool} {l : Text} (h : ∀ c ∈ l, q c = true) : l.takeWhile q = l := by
  induction l with
  | nil => rfl
  | cons c t ih =>
    rw [List.takeWhile_cons_of_pos (h c List.mem_cons_self), ih (fun d hd => h d (List.mem_cons_of_mem _ hd))]

theorem segs_nil_filterMap : (segs []).filterMap segComp = [] := by decide

theorem joinPath_comps (q i : Text) (hq : q ≠ []) (hi : i.head? ≠ some '/') :
    comps (joinPath q i) = comps q ++ (segs i).filterMap segComp := by
  unfold joinPath
  rw [if_neg hi]
  split
  · rename_i h
    rcases h with h | h
    · exact absurd h hq
    · obtain ⟨q', hq'⟩ : ∃ q', q = q' ++ ['/'] := by
        rcases List.eq_nil_or_concat q with h0 | ⟨l, b, hb⟩
        · exact absurd h0 hq
        · rw [hb] at h
          simp at h
          exact ⟨l, by rw [hb, h]; simp⟩
      subst hq'
      rw [List.append_assoc, List.singleton_append]
      by_cases h0 : q' = []
      · subst h0
        show comps ('/' :: i) = comps ['/'] ++ _
        have h1 : comps ('/' :: i) = [.root] ++ (segs ('/' :: i)).filterMap segComp := by simp [comps]
        have h2 : segs ('/' :: i) = [] :: segs i := by
          have := segs_append [] i
          simpa [segs, splitOn] using this
        have h3 : comps ['/'] = [.root] := by decide
        rw [h1, h2, h3, List.filterMap_cons_none (by decide)]
      · rw [comps_append _ _ h0, comps_append q' [] h0, segs_nil_filterMap, List.append_nil]
  · exact comps_append q i hq

theorem segComp_name {n : Text} (h : n ≠ [] ∧ '/' ∉ n ∧ n ≠ ['.'] ∧ n ≠ ['.', '.']) :
    (segs n).filterMap segComp = [.normal n] := by
  rw [segs_single h.2.1]
  simp [segComp, h.1, h.2.2.1, h.2.2.2]

/-- a line of a page belongs to an entry, whose path is written below the root -/
theorem row_entry {e : Fs} {f : FileSrv} {path dir : Text} {accept : Option Text} {shown : List Text}
    {rate : Option Text} {len : Text → Option Nat} (hn : NamesOk e) (hr : rootOf e f ≠ [])
    (hidx : ∀ i ∈ f.index, i.head? ≠ some '/') (h : dealRequest e f path accept = .listing dir shown rate)
    {pg : Page} (hp : page e len f path accept = some pg) {row : Row} (hrow : row ∈ pg.rows) :
    row.name ∈ e.entries dir ∧ ∃ g0 g, dir = rootOf e f ++ '/' :: g0 ∧ joinPath dir row.name = rootOf e f ++ '/' :: g ∧
      row.link = f.pfx ++ '/' :: (rest g).map (fun c => if c = '\\' then '/' else c) := by
  obtain ⟨pg', h1, h2⟩ := page_rows len hn hr hidx h
  have : pg' = pg := Option.some.inj (h1.symm.trans hp)
  subst this
  have hrow' : ∃ n ∈ e.entries dir, lineOf e len f dir n = row := by
    rw [h2] at hrow
    rcases List.mem_append.1 hrow with hx | hx
    all_goals
      obtain ⟨n, hm, rfl⟩ := List.mem_map.1 (List.mem_filter.1 hx).1
      exact ⟨n, (List.mem_filter.1 hm).1, rfl⟩
  obtain ⟨n, hm, rfl⟩ := hrow'
  obtain ⟨g0, x, hd, _⟩ := listing_dir hidx h
  obtain ⟨g, hg⟩ := joinPath_below (rootOf e f) g0 n (head_noSlash (hn dir n hm).2.1)
  rw [← hd] at hg
  refine ⟨hm, g0, g, hd, hg, ?_⟩
  show f.pfx ++ '/' :: (rest (below? (rootOf e f) (joinPath dir n))).map _ = _
  rw [below?_eq hg]

/-- **C147**, partial: following the link of a line leads to the entry of that line: to the file, or to the page of the
    folder — if the path of the entry has no backslash and the link no `%`, `?` or `#`. Missing: other names, see below. -/
theorem C147_link_partial (e : Fs) (len : Text → Option Nat) (f : FileSrv) (path : Text) (accept : Option Text) (dir : Text)
    (shown : List Text) (rate : Option Text) (r : Text) (hroot : f.root = some r) (hr : r ≠ []) (hn : NamesOk e)
    (hfs : SamePaths e) (hidx : ∀ i ∈ f.index, i.head? ≠ some '/')
    (h : dealRequest e f path accept = .listing dir shown rate) (pg : Page) (hp : page e len f path accept = some pg)
    (row : Row) (hrow : row ∈ pg.rows) (hb : '\\' ∉ joinPath dir row.name)
    (hc : ∀ c ∈ ['%', '?', '#'], c ∉ row.link)
    (hhide : ∀ x ∈ f.hide, ¬ x <:+: r ∧ ¬ x <:+: row.link) (hrob : f.robots = none ∨ row.link ≠ "/robots.txt".toList) :
    (e.isDir (joinPath dir row.name) = false → e.ex (joinPath dir row.name) = true →
      ∃ q, dealRequest e f (asked row.link) none = .file q none none ∧ comps q = comps (joinPath dir row.name)) ∧
    (e.isDir (joinPath dir row.name) = true → f.browse = true →
      (∀ i ∈ f.index, e.ex (joinPath (joinPath dir row.name) i) = false) →
      ∃ q s, dealRequest e f (asked row.link) none = .listing q s f.rate ∧ comps q = comps (joinPath dir row.name)) := by
  have hro : rootOf e f = r := by unfold rootOf; rw [hroot]; simp [hr]
  obtain ⟨hm, g0, g, hd, hg, hl⟩ := row_entry hn (by rw [hro]; exact hr) hidx h hp hrow
  rw [hro] at hd hg
  have hmap : (rest g).map (fun c => if c = '\\' then '/' else c) = rest g := by
    conv_rhs => rw [← List.map_id (rest g)]
    refine List.map_congr_left ?_
    intro c hcm
    have : c ≠ '\\' := by
      rintro rfl
      rcases rest_mem hcm with h0 | h0
      · exact absurd h0 (by decide)
      · exact hb (by rw [hg]; exact List.mem_append_right _ (List.mem_cons_of_mem _ h0))
    simp [this]
  rw [hmap] at hl
  have hask : asked row.link = row.link := by
    unfold asked
    refine takeWhile_all ?_
    intro c hcm
    simp only [decide_eq_true_eq]
    exact ⟨fun h0 => hc '?' (by decide) (h0 ▸ hcm), fun h0 => hc '#' (by decide) (h0 ▸ hcm)⟩
  have hnames : Names e f row.link ('/' :: rest g) := ⟨rfl, .inl ⟨hc '%' (by decide), hl⟩⟩
  have hshown : Shown e f r row.link ('/' :: rest g) := by
    refine ⟨fun x hx => ⟨(hhide x hx).1, ?_⟩, hrob⟩
    rw [← hl]
    exact (hhide x hx).2
  have hcomps : comps (r ++ '/' :: rest g) = comps (joinPath dir row.name) := by
    rw [hg, comps_append _ _ hr, comps_append _ _ hr, rest_comps]
  rw [hask]
  constructor
  · intro h1 h2
    refine ⟨r ++ '/' :: rest g, ?_, hcomps⟩
    rw [dealRequest_names none hroot hr hnames hshown]
    have hnd : e.isDir (r ++ '/' :: rest g) = false := by rw [(hfs _ _ hcomps).1]; exact h1
    have hex : e.ex (r ++ '/' :: rest g) = true := by rw [(hfs _ _ hcomps).2]; exact h2
    have hw : withIndex e f (r ++ '/' :: rest g) = r ++ '/' :: rest g := by
      unfold withIndex; rw [hnd]; rfl
    rw [hw, hnd]
    simp [byFile, hex]
  · intro h1 h2 h3
    rw [dealRequest_names none hroot hr hnames hshown]
    have hdir : e.isDir (r ++ '/' :: rest g) = true := by rw [(hfs _ _ hcomps).1]; exact h1
    have hw : withIndex e f (r ++ '/' :: rest g) = r ++ '/' :: rest g := by
      unfold withIndex
      rw [if_pos hdir]
      have : f.index.find? (fun i => e.ex (joinPath (r ++ '/' :: rest g) i)) = none := by
        rw [List.find?_eq_none]
        intro i hi
        have hne : joinPath dir row.name ≠ [] := by rw [hg]; simp
        have : comps (joinPath (r ++ '/' :: rest g) i) = comps (joinPath (joinPath dir row.name) i) := by
          rw [joinPath_comps _ _ (by simp) (hidx i hi), joinPath_comps _ _ hne (hidx i hi), hcomps]
        rw [(hfs _ _ this).2, h3 i hi]
        decide
      rw [this]
    rw [hw, hdir, h2]
    exact ⟨_, _, rfl, hcomps⟩

theorem byFile_none {e : Fs} {f : FileSrv} {p q : Text} (h : (byFile e f none p).path? = some q) : q = p := by
  unfold byFile at h
  simp only [Option.bind_none] at h
  split at h
  · injection h with h; exact h.symm
  · cases h

/-- what is sent to a client that names no encodings lies at the decoded path below the root, or is an index file there -/
theorem served_shape {e : Fs} {f : FileSrv} {path q : Text} (h : (dealRequest e f path none).path? = some q) :
    ∃ x, decoded e path = f.pfx ++ x ∧
      (q = rootOf e f ++ withSlash x ∨ ∃ i ∈ f.index, q = joinPath (rootOf e f ++ withSlash x) i) := by
  unfold dealRequest at h
  split at h
  · cases h
  split at h
  · cases h
  split at h
  · cases h
  rename_i x hx
  refine ⟨x, stripPrefix_eq_some.1 hx, ?_⟩
  have hw : withIndex e f (rootOf e f ++ withSlash x) = q →
      (q = rootOf e f ++ withSlash x ∨ ∃ i ∈ f.index, q = joinPath (rootOf e f ++ withSlash x) i) := by
    rintro rfl
    unfold withIndex
    split
    · split
      · rename_i i hi
        exact .inr ⟨i, List.mem_of_find?_eq_some hi, rfl⟩
      · exact .inl rfl
    · exact .inl rfl
  simp only at h
  split at h
  · cases h
  split at h
  · split at h
    · cases h
    · injection h with h; exact hw h
  · split at h
    · cases h
    · exact hw (byFile_none h).symm

theorem normal_mem {t n : Text} (h : Comp.normal n ∈ (segs t).filterMap segComp) : n ∈ segs t := by
  obtain ⟨s, hs, hc⟩ := List.mem_filterMap.1 h
  unfold segComp at hc
  split at hc
  · cases hc
  · split at hc
    · cases hc
    · injection hc with hc; injection hc with hc; exact hc ▸ hs

theorem asked_prefix (l : Text) : asked l <+: l := List.takeWhile_prefix _

theorem asked_not {l : Text} {c : Char} (h : c = '?' ∨ c = '#') : c ∉ asked l := by
  intro hm
  unfold asked at hm
  induction l with
  | nil => cases hm
  | cons d t ih =>
    rw [List.takeWhile_cons] at hm
    split at hm
    · rename_i hd
      simp only [decide_eq_true_eq] at hd
      rcases List.mem_cons.1 hm with rfl | hm
      · rcases h with rfl | rfl
        · exact hd.1 rfl
        · exact hd.2 rfl
      · exact ih hm
    · cases hm

theorem leads_elsewhere {e : Fs} {len : Text → Option Nat} {f : FileSrv} {path : Text} {accept : Option Text}
    {dir : Text} {shown : List Text} {rate : Option Text} {r : Text} (hroot : f.root = some r) (hr : r ≠ [])
    (hn : NamesOk e) (hidx : ∀ i ∈ f.index, i.head? ≠ some '/')
    (h : dealRequest e f path accept = .listing dir shown rate) {pg : Page} (hp : page e len f path accept = some pg)
    {row : Row} (hrow : row ∈ pg.rows) {c : Char} (hcn : c ∈ row.name) (hci : ∀ i ∈ f.index, c ∉ i)
    (hcx : ∀ x, decoded e (asked row.link) = f.pfx ++ x → c ∉ x) :
    ∀ q, (dealRequest e f (asked row.link) none).path? = some q → comps q ≠ comps (joinPath dir row.name) := by
  have hro : rootOf e f = r := by unfold rootOf; rw [hroot]; simp [hr]
  obtain ⟨hm, g0, g, hd, hg, hl⟩ := row_entry hn (by rw [hro]; exact hr) hidx h hp hrow
  rw [hro] at hd hg
  intro q hq heq
  obtain ⟨x, hx, hqx⟩ := served_shape hq
  rw [hro] at hqx
  have hcx := hcx x hx
  obtain ⟨y, hy, hcy⟩ : ∃ y, withSlash x = '/' :: y ∧ c ∉ y := by
    unfold withSlash
    split
    · rename_i hh
      cases x with
      | nil => cases hh
      | cons d t =>
        injection hh with hh
        subst hh
        exact ⟨t, rfl, fun h0 => hcx (List.mem_cons_of_mem _ h0)⟩
    · exact ⟨x, rfl, hcx⟩
  have hdne : dir ≠ [] := by rw [hd]; simp
  have hcomp : comps (joinPath dir row.name) = comps r ++ ((segs g0).filterMap segComp ++ [.normal row.name]) := by
    rw [joinPath_comps _ _ hdne (head_noSlash (hn dir _ hm).2.1), segComp_name (hn dir _ hm), hd, comps_append _ _ hr,
      List.append_assoc]
  rw [hy] at hqx
  rw [hcomp] at heq
  rcases hqx with rfl | ⟨i, hi, rfl⟩
  · rw [comps_append _ _ hr] at heq
    have h2 := List.append_cancel_left heq
    have h3 : Comp.normal row.name ∈ (segs y).filterMap segComp := by rw [h2]; simp
    exact hcy (segs_mem (normal_mem h3) hcn)
  · rw [joinPath_comps _ _ (by simp) (hidx i hi), comps_append _ _ hr, List.append_assoc] at heq
    have h2 := List.append_cancel_left heq
    have h3 : Comp.normal row.name ∈ (segs y).filterMap segComp ++ (segs i).filterMap segComp := by rw [h2]; simp
    rcases List.mem_append.1 h3 with h4 | h4
    · exact hcy (segs_mem (normal_mem h4) hcn)
    · exact hci i hi (segs_mem (normal_mem h4) hcn)

/-- **C147** fails for a name with a backslash, `?` or `#`: following its link never leads to the entry, whatever the
    directory contains. -/
theorem C147_characters_fails (e : Fs) (len : Text → Option Nat) (f : FileSrv) (path : Text) (accept : Option Text)
    (dir : Text) (shown : List Text) (rate : Option Text) (r : Text) (hroot : f.root = some r) (hr : r ≠ [])
    (hn : NamesOk e) (hidx : ∀ i ∈ f.index, i.head? ≠ some '/')
    (h : dealRequest e f path accept = .listing dir shown rate) (pg : Page) (hp : page e len f path accept = some pg)
    (row : Row) (hrow : row ∈ pg.rows) (c : Char) (hc : c ∈ ['\\', '?', '#']) (hcn : c ∈ row.name)
    (hci : ∀ i ∈ f.index, c ∉ i) (hpc : '%' ∉ row.link) :
    ∀ q, (dealRequest e f (asked row.link) none).path? = some q → comps q ≠ comps (joinPath dir row.name) := by
  have hro : rootOf e f = r := by unfold rootOf; rw [hroot]; simp [hr]
  obtain ⟨hm, g0, g, hd, hg, hl⟩ := row_entry hn (by rw [hro]; exact hr) hidx h hp hrow
  refine leads_elsewhere hroot hr hn hidx h hp hrow hcn hci ?_
  intro x hx hcm
  have hdec : decoded e (asked row.link) = asked row.link := by
    unfold decoded
    rw [if_neg (fun h0 => hpc ((asked_prefix _).subset h0))]
  rw [hdec] at hx
  rcases List.mem_cons.1 hc with rfl | hc2
  · obtain ⟨t, ht⟩ := asked_prefix row.link
    rw [hx, hl, List.append_assoc] at ht
    have h2 := List.append_cancel_left ht
    have h3 : '\\' ∈ '/' :: (rest g).map (fun c => if c = '\\' then '/' else c) := by
      rw [← h2]; exact List.mem_append_left _ hcm
    rcases List.mem_cons.1 h3 with h4 | h4
    · exact absurd h4 (by decide)
    · obtain ⟨d, _, hd2⟩ := List.mem_map.1 h4
      split at hd2
      · exact absurd hd2 (by decide)
      · rename_i hne; exact hne hd2
  · refine asked_not (l := row.link) (c := c) ?_ ?_
    · rcases List.mem_cons.1 hc2 with h0 | h0
      · exact .inl h0
      · exact .inr (by simpa using h0)
    · rw [hx]; exact List.mem_append_right _ hcm

/-- **C147** fails for a name that reads as percent-encoded: if the link can be decoded and no `%` is left, following it never
    leads to the entry; it leads to the file with the decoded name, if there is one. -/
theorem C147_percent_fails (e : Fs) (len : Text → Option Nat) (f : FileSrv) (path : Text) (accept : Option Text)
    (dir : Text) (shown : List Text) (rate : Option Text) (r : Text) (hroot : f.root = some r) (hr : r ≠ [])
    (hn : NamesOk e) (hidx : ∀ i ∈ f.index, i.head? ≠ some '/')
    (h : dealRequest e f path accept = .listing dir shown rate) (pg : Page) (hp : page e len f path accept = some pg)
    (row : Row) (hrow : row ∈ pg.rows) (hcn : '%' ∈ row.name) (hci : ∀ i ∈ f.index, '%' ∉ i) (t : Text)
    (hpc : '%' ∈ asked row.link) (hdec : e.decode (asked row.link) = some (f.pfx ++ '/' :: t)) (ht : '%' ∉ t) :
    (∀ q, (dealRequest e f (asked row.link) none).path? = some q → comps q ≠ comps (joinPath dir row.name)) ∧
    (f.pfx <+: asked row.link → Shown e f r (asked row.link) ('/' :: t) → e.isDir (r ++ '/' :: t) = false →
      e.ex (r ++ '/' :: t) = true → dealRequest e f (asked row.link) none = .file (r ++ '/' :: t) none none) := by
  constructor
  · refine leads_elsewhere hroot hr hn hidx h hp hrow hcn hci ?_
    intro x hx hcm
    unfold decoded at hx
    rw [if_pos hpc, hdec] at hx
    have := List.append_cancel_left (show f.pfx ++ '/' :: t = f.pfx ++ x from hx)
    rw [← this] at hcm
    rcases List.mem_cons.1 hcm with h0 | h0
    · exact absurd h0 (by decide)
    · exact ht h0
  · intro h1 h2 h3 h4
    have := C97_file e f r (asked row.link) ('/' :: t) none hroot hr ⟨rfl, .inr ⟨hpc, h1, hdec⟩⟩ h2 h3
      (by intro a ha; cases ha)
    rw [this, if_pos h4]

/-! ### C148: names as text -/

/-- the page without the names, paths and sizes in it -/
def Page.blank (p : Page) : Page := ⟨[], p.rows.map fun r => { r with size := [], link := [], name := [] }⟩

theorem count_row (icon : Bool → Text) (r : Row) :
    (rowText icon r).count '<' = (rowText icon { r with size := [], link := [], name := [] }).count '<' +
      (r.size.count '<' + r.link.count '<' + r.name.count '<') := by
  unfold rowText
  simp only [List.count_append, List.count_nil]
  omega

theorem count_rowTexts (icon : Bool → Text) (rows : List Row) :
    (rows.flatMap (rowText icon)).count '<' =
      ((rows.map fun r => ({ r with size := [], link := [], name := [] } : Row)).flatMap (rowText icon)).count '<' +
        (rows.map fun r => r.size.count '<' + r.link.count '<' + r.name.count '<').sum := by
  induction rows with
  | nil => rfl
  | cons r t ih =>
    simp only [List.flatMap_cons, List.map_cons, List.count_append, List.sum_cons]
    rw [ih, count_row]
    omega

theorem count_page (pre after last : Text) (icon : Bool → Text) (p : Page) :
    (pageText pre after last icon p).count '<' = (pageText pre after last icon p.blank).count '<' +
      2 * p.head.count '<' + (p.rows.map fun r => r.size.count '<' + r.link.count '<' + r.name.count '<').sum := by
  unfold pageText Page.blank
  simp only [List.count_append, List.count_nil]
  rw [count_rowTexts]
  omega

theorem digitChar_ne : ∀ k : Fin 10, digitChar k.val ≠ '<' := by decide

theorem showNat_plain (n : Nat) : '<' ∉ showNat n := by
  induction n using Nat.strongRecOn with
  | ind n ih =>
    have hd : ∀ m, digitChar (m % 10) ≠ '<' := fun m => digitChar_ne ⟨m % 10, Nat.mod_lt _ (by decide)⟩
    rw [showNat]
    split
    · rename_i h
      have := hd n
      rw [Nat.mod_eq_of_lt h] at this
      simp only [List.mem_singleton]
      exact fun h0 => this h0.symm
    · simp only [List.mem_append, List.mem_singleton, not_or]
      exact ⟨ih (n / 10) (by omega), fun h0 => hd n h0.symm⟩

theorem sizeText_plain (l : Nat) : '<' ∉ sizeText l := by
  have h : ∀ n, ∀ c ≠ '<', '<' ∉ showNat n ++ [c] := by
    intro n c hc
    simp only [List.mem_append, List.mem_singleton, not_or]
    exact ⟨showNat_plain n, fun h0 => hc h0.symm⟩
  unfold sizeText
  split
  · exact h _ _ (by decide)
  split
  · exact h _ _ (by decide)
  split
  · exact h _ _ (by decide)
  · exact h _ _ (by decide)

theorem line_size_plain (e : Fs) (len : Text → Option Nat) (f : FileSrv) (dir n : Text) :
    '<' ∉ (lineOf e len f dir n).size := by
  show '<' ∉ (if e.isDir (joinPath dir n) then [] else ((len (joinPath dir n)).map sizeText).getD [])
  split
  · exact List.not_mem_nil
  · cases len (joinPath dir n) with
    | none => exact List.not_mem_nil
    | some l => exact sizeText_plain l

/-- **C148**, partial: the number of tags of a page is that of its fixed texts, if no name or path contains `<`. Missing:
    names with `<`, see the next theorem. -/
theorem C148_tags_partial (e : Fs) (len : Text → Option Nat) (f : FileSrv) (path : Text) (accept : Option Text)
    (dir : Text) (shown : List Text) (rate : Option Text) (hn : NamesOk e) (hr : rootOf e f ≠ [])
    (hidx : ∀ i ∈ f.index, i.head? ≠ some '/') (h : dealRequest e f path accept = .listing dir shown rate)
    (pg : Page) (hp : page e len f path accept = some pg) (hh : '<' ∉ pg.head)
    (hrow : ∀ r ∈ pg.rows, '<' ∉ r.name ∧ '<' ∉ r.link) (pre after last : Text) (icon : Bool → Text) :
    (pageText pre after last icon pg).count '<' = (pageText pre after last icon pg.blank).count '<' := by
  obtain ⟨pg', h1, h2⟩ := page_rows len hn hr hidx h
  have : pg' = pg := Option.some.inj (h1.symm.trans hp)
  subst this
  have hsz : ∀ r ∈ pg'.rows, '<' ∉ r.size := by
    intro r hm
    rw [h2] at hm
    rcases List.mem_append.1 hm with hx | hx
    all_goals
      obtain ⟨n, _, rfl⟩ := List.mem_map.1 (List.mem_filter.1 hx).1
      exact line_size_plain e len f dir n
  rw [count_page, List.count_eq_zero_of_not_mem hh]
  have hz : ∀ l : List Row, (∀ r ∈ l, '<' ∉ r.name ∧ '<' ∉ r.link ∧ '<' ∉ r.size) →
      (l.map fun r => r.size.count '<' + r.link.count '<' + r.name.count '<').sum = 0 := by
    intro l
    induction l with
    | nil => intro _; rfl
    | cons r t ih =>
      intro h
      obtain ⟨h1, h2, h3⟩ := h r List.mem_cons_self
      rw [List.map_cons, List.sum_cons, ih (fun x hx => h x (List.mem_cons_of_mem _ hx)),
        List.count_eq_zero_of_not_mem h1, List.count_eq_zero_of_not_mem h2, List.count_eq_zero_of_not_mem h3]
  rw [hz _ (fun r hm => ⟨(hrow r hm).1, (hrow r hm).2, hsz r hm⟩)]
  rfl

theorem sum_pos_of_mem {l : List Row} {r : Row} (g : Row → Nat) (h : r ∈ l) (hg : 0 < g r) : 0 < (l.map g).sum := by
  induction l with
  | nil => cases h
  | cons x t ih =>
    rw [List.map_cons, List.sum_cons]
    rcases List.mem_cons.1 h with rfl | h
    · omega
    · have := ih h; omega

/-- **C148** fails: a name of an entry is put into the page as it is, so that it is read as part of the page: with a `<` in
    it the page has more tags than its fixed texts. -/
theorem C148_markup_fails (e : Fs) (len : Text → Option Nat) (f : FileSrv) (path : Text) (accept : Option Text)
    (dir : Text) (shown : List Text) (rate : Option Text) (hn : NamesOk e) (hr : rootOf e f ≠ [])
    (hidx : ∀ i ∈ f.index, i.head? ≠ some '/') (h : dealRequest e f path accept = .listing dir shown rate)
    (n : Text) (hm : n ∈ e.entries dir) (hh : ¬ Hidden f (joinPath dir n)) (hc : '<' ∈ n)
    (pre after last : Text) (icon : Bool → Text) :
    ∃ pg, page e len f path accept = some pg ∧ n <:+: pageText pre after last icon pg ∧
      (pageText pre after last icon pg.blank).count '<' < (pageText pre after last icon pg).count '<' := by
  obtain ⟨pg, h1, h2, h3, _⟩ := C146_page e len f path accept dir shown rate hn hr hidx h
  have hmem : n ∈ pg.rows.map (·.name) := by
    rw [← List.count_pos_iff, h3 n hh, List.count_pos_iff]
    exact hm
  obtain ⟨row, hrow, rfl⟩ := List.mem_map.1 hmem
  refine ⟨pg, h1, ?_, ?_⟩
  · obtain ⟨a, b, hab⟩ := List.append_of_mem hrow
    refine ⟨pre ++ pg.head ++ after ++ "<body><h1>Index Of ".toList ++ pg.head ++ "</h1>".toList ++
      "<table>\r\n<tbody>".toList ++ a.flatMap (rowText icon) ++ ("<tr>".toList ++ icon row.folder ++
      "<td class=\"file-size\"><code>".toList ++ row.size ++ "</code></td>".toList ++
      "<td><a href=\"".toList ++ row.link ++ "\">".toList),
      "</td>".toList ++ "</tr>".toList ++ b.flatMap (rowText icon) ++ last, ?_⟩
    unfold pageText
    rw [hab, List.flatMap_append, List.flatMap_cons]
    unfold rowText
    simp only [List.append_assoc]
  · rw [count_page pre after last icon pg]
    have := sum_pos_of_mem (fun r : Row => r.size.count '<' + r.link.count '<' + r.name.count '<') hrow
      (by have := List.count_pos_iff.2 hc; omega)
    omega

/-! ### C149: what is not served -/

/-- **C149**, partial: a request for a file that is not there is answered with the configured status, if no page is configured
    for that or the configured one is missing. Missing: with such a page, see the next theorem. -/
theorem C149_status_partial (e : Fs) (f : FileSrv) (env : CondEnv) (info : Text → Meta) (status : Nat)
    (page404 : Option Text) (r path h : Text) (accept : Option Text) (c : Cond) (hroot : f.root = some r) (hr : r ≠ [])
    (hn : Names e f path h) (hs : Shown e f r path h) (hd : e.isDir (r ++ h) = false) (hp : NoForm e f accept (r ++ h))
    (hex : e.ex (r ++ h) = false)
    (h404 : status ≠ 404 ∨ page404 = none ∨ ∃ p, page404 = some p ∧ e.ex p = false ∧ NoForm e f accept p) :
    sent e f env info status page404 path accept c = some (status, none) := by
  have hmsg : retError e f env info status page404 accept c = .message status := by
    unfold retError
    rcases h404 with h0 | h0 | ⟨p, h0, h1, h2⟩
    · rw [show (status == 404) = false by simpa using h0]
    · subst h0
      cases (status == 404) <;> rfl
    · subst h0
      cases hst : (status == 404)
      · rfl
      · simp only
        rw [byFile_plain h2, if_neg (by simp [h1])]
  unfold sent
  rw [C97_file e f r path h accept hroot hr hn hs hd hp, if_neg (by simp [hex])]
  simp only [hmsg]

/-- **C149** fails with a page for it: the page is sent like any other file, never with status 404. -/
theorem C149_page_fails (e : Fs) (f : FileSrv) (env : CondEnv) (info : Text → Meta) (p r path h : Text)
    (accept : Option Text) (c : Cond) (hroot : f.root = some r) (hr : r ≠ []) (hn : Names e f path h)
    (hs : Shown e f r path h) (hd : e.isDir (r ++ h) = false) (hp : NoForm e f accept (r ++ h)) (hex : e.ex (r ++ h) = false)
    (hp4 : e.ex p = true) (hf4 : NoForm e f accept p) (hno : c.range = none) :
    ∃ s, sent e f env info 404 (some p) path accept c = some (s, some p) ∧ (s = 200 ∨ s = 304) := by
  have hfr : ∃ x, fileResponse env c (info p) = some x ∧ (x.status = 200 ∨ x.status = 304) := by
    unfold fileResponse
    have ha : ∀ x : FResp, ∃ y, afterFile env c (info p) x = some y ∧ y.status = x.status := by
      intro x
      unfold afterFile applyRange applyHead
      rw [hno]
      split
      · split
        · refine ⟨_, rfl, ?_⟩
          split <;> rfl
        · exact ⟨_, rfl, rfl⟩
      · refine ⟨_, rfl, ?_⟩
        split <;> rfl
    split
    · obtain ⟨y, h1, h2⟩ := ha ⟨304, .empty, none⟩
      rw [h1]
      exact ⟨y, rfl, .inr h2⟩
    · obtain ⟨y, h1, h2⟩ := ha ⟨200, .whole, none⟩
      rw [h1]
      exact ⟨y, rfl, .inl h2⟩
  obtain ⟨x, hx, hst⟩ := hfr
  refine ⟨x.status, ?_, hst⟩
  unfold sent
  rw [C97_file e f r path h accept hroot hr hn hs hd hp, if_neg (by simp [hex])]
  have hmsg : retError e f env info 404 (some p) accept c = .file p none x := by
    unfold retError
    simp only [show ((404 : Nat) == 404) = true from rfl]
    rw [byFile_plain hf4, if_pos hp4]
    simp only [hx]
  simp only [hmsg]

/-- **C71** fails for a file whose last change is told as the first second of 1970 (as archives and images without times have
    it): a client gets 304 for any text that cannot be read as a date. -/
theorem C71_epoch_fails (parse : Text → Option Nat) (env : CondEnv) (henv : env.lastMod = lastModOf parse) (c : Cond)
    (m : Meta) (v : Text) (hm : m.mtime = some 0) (hv : c.ifModifiedSince = some v) (hbad : parse v = none)
    (hr : c.range = none) : fileResponse env c m = some ⟨304, .empty, none⟩ := by
  refine C71_not_modified_partial env c m (.inr ⟨v, 0, hv, hm, ?_⟩) hr
  rw [henv]
  unfold lastModOf
  rw [hbad]
  rfl

/-! ### examples -/

/-- a directory with a folder and files whose names need care -/
def pageFs : Fs where
  cwd := ['/']
  isDir p := comps p ∈ [comps "/s/d".toList, comps "/s/d/k".toList]
  ex p := comps p ∈ [comps "/s/d/x".toList, comps "/s/d/%78".toList, comps "/s/d/a\\b".toList, comps "/s/d/<b>".toList]
  entries p := if comps p = comps "/s/d".toList then
    ["x".toList, "k".toList, "%78".toList, "a\\b".toList, "<b>".toList, ".h".toList] else []
  decode p := some (pct p)

def pageSrv : FileSrv := { demoSrv with hide := ["/.".toList], index := ["index.html".toList] }

example : NamesOk pageFs ∧ SamePaths pageFs ∧ rootOf pageFs pageSrv ≠ [] ∧ ∀ i ∈ pageSrv.index, i.head? ≠ some '/' := by
  refine ⟨?_, ?_, by decide, by decide⟩
  · intro d n hn
    unfold pageFs at hn
    simp only at hn
    split at hn
    · revert n; decide
    · cases hn
  · intro p q h
    exact ⟨by simp only [pageFs, h], by simp only [pageFs, h]⟩

example : (page pageFs (fun _ => some 2049) pageSrv "/a//d".toList none).map (·.rows) = some
    [⟨true, [], "/a/d/k".toList, "k".toList⟩, ⟨false, "2K".toList, "/a/d/x".toList, "x".toList⟩,
     ⟨false, "2K".toList, "/a/d/%78".toList, "%78".toList⟩, ⟨false, "2K".toList, "/a/d/a/b".toList, "a\\b".toList⟩,
     ⟨false, "2K".toList, "/a/d/<b>".toList, "<b>".toList⟩] := by decide +kernel

example : dealRequest pageFs pageSrv "/a/d/x".toList none = .file "/s/d/x".toList none none ∧
    dealRequest pageFs pageSrv "/a/d/k".toList none = .listing "/s/d/k".toList [] none ∧
    dealRequest pageFs pageSrv "/a/d/%78".toList none = .file "/s/d/x".toList none none ∧
    dealRequest pageFs pageSrv "/a/d/a/b".toList none = .refused := by decide +kernel

def pageEnv : CondEnv := ⟨lastModOf fun _ => none, fun b _ _ => some b⟩

example : sent pageFs pageSrv pageEnv (fun _ => ⟨10, some 5⟩) 404 none "/a/d/z".toList none
      ⟨none, none, none, none, none, false⟩ = some (404, none) ∧
    sent pageFs pageSrv pageEnv (fun _ => ⟨10, some 5⟩) 404 (some "/s/d/x".toList) "/a/d/z".toList none
      ⟨none, none, none, none, none, false⟩ = some (200, some "/s/d/x".toList) ∧
    fileResponse pageEnv ⟨none, some "rubbish".toList, none, none, none, false⟩ ⟨10, some 0⟩
      = some ⟨304, .empty, none⟩ := by decide +kernel

end Wm.Files
