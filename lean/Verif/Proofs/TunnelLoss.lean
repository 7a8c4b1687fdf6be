import Verif.Proofs.TunnelDue
/-! A data message that was dropped on a full channel, or looked at before its stream was registered, is missing from what
the stream receives, whatever else happens. -/
namespace Wm.Tunnel
open Wm Wm.Prot
open scoped List

/-- `a` consists of some of the parts of `b`, in order, without one part that is `d` -/
def Omits (d : Bytes) (a b : List Bytes) : Prop := ∃ x y, b = x ++ d :: y ∧ a <+ x ++ y

theorem Omits.less {d a a' b} (h : Omits d a b) (ha : a' <+ a) : Omits d a' b := by
  obtain ⟨x, y, e, h⟩ := h
  exact ⟨x, y, e, ha.trans h⟩

theorem Omits.more {d a b b'} (h : Omits d a b) (hb : b <+ b') : Omits d a b' := by
  obtain ⟨x, y, rfl, h⟩ := h
  obtain ⟨r1, r2, rfl, h1, h2⟩ := List.append_sublist_iff.1 hb
  obtain ⟨s1, s2, rfl, h3, h4⟩ := List.cons_sublist_iff.1 h2
  obtain ⟨p, q, rfl⟩ := List.append_of_mem h3
  exact ⟨r1 ++ p, q ++ s2, by simp, h.trans
    ((h1.trans (List.sublist_append_left _ _)).append (h4.trans (List.sublist_append_right _ _)))⟩

theorem puts_append (k : Nat) (a b : List Obs) : puts k (a ++ b) = puts k a ++ puts k b := by
  simp [puts, ← List.filterMap_append]

theorem attempts_append (k : Nat) (a b : List Obs) : attempts k (a ++ b) = attempts k a ++ attempts k b := by
  simp [attempts, ← List.filterMap_append]

theorem datas_single (i : Nat) (d : Bytes) (fs : List Frame) : datas i (.data i d :: fs) = d :: datas i fs := by
  simp [datas]

theorem received_sub_puts {acc debt s} (h : DInv acc debt s) (k : Nat) : received k s.trace <+ puts k s.trace := by
  cases hr : (s.chan k).rx with
  | true => rw [← (h.open_ k hr).1]; exact List.sublist_append_left _ _
  | false => exact (h.gone k hr).1.sublist

/-- a data message dropped on a full channel -/
theorem omits_overflow {acc debt s} (h : DInv acc debt s) {i k d} (ho : .overflow k (.data i d) ∈ s.trace) :
    Omits d (datas i (received k s.trace)) (datas i (gots s.trace)) := by
  have h1 : Omits d (datas i (puts k s.trace)) (datas i (attempts k s.trace)) := by
    obtain ⟨a, b, e⟩ := List.append_of_mem ho
    rw [e]
    refine ⟨datas i (attempts k a), datas i (attempts k b), ?_, ?_⟩
    · rw [attempts_append, datas_append]
      have : attempts k (.overflow k (.data i d) :: b) = .data i d :: attempts k b := by simp [attempts]
      rw [this, datas_single]
    · have : puts k (.overflow k (.data i d) :: b) = puts k b := by simp [puts]
      rw [puts_append, this, datas_append]
      exact ((puts_sub_attempts k a).filterMap _).append ((puts_sub_attempts k b).filterMap _)
  refine (h1.less ((received_sub_puts h k).filterMap _)).more ?_
  refine List.Sublist.trans ?_ (datas_dueFrom_sub acc k i s.trace [])
  have h2 : attempts k s.trace <+ dueFrom acc k [] s.trace := by
    have := h.flow k
    unfold due at this
    rw [← this]
    exact List.sublist_append_left _ _
  exact h2.filterMap _

theorem owner_none {i : Nat} : ∀ {t : List Obs}, regCount i t = 0 → owner t i = none := by
  intro t
  induction t using List.reverseRecOn with
  | nil => intro _; rfl
  | append_singleton t o ih =>
    intro h
    rw [regCount_append] at h
    rw [owner_other (by omega)]
    exact ih (by omega)

/-- a data message looked at before a stream was registered under its id -/
theorem omits_early {acc debt s} (h : DInv acc debt s) {i d a b} (k : Nat) (e : s.trace = a ++ .got (.data i d) :: b)
    (hr : regCount i a = 0) : Omits d (datas i (received k s.trace)) (datas i (gots s.trace)) := by
  have h1 : Omits d (datas i (due acc k s.trace)) (datas i (gots s.trace)) := by
    rw [e]
    refine ⟨datas i (gots a), datas i (gots b), ?_, ?_⟩
    · rw [gots_append', datas_append, gots_cons]
      have : gots [Obs.got (.data i d)] = [.data i d] := rfl
      rw [this, List.singleton_append, datas_single]
    · rw [due_append, datas_append, dueFrom, datas_append]
      have : dueNow acc k a (.got (.data i d)) = [] := by simp [dueNow, Frame.sockMap, owner_none hr]
      rw [this]
      exact (datas_dueFrom_sub acc k i a []).append (datas_dueFrom_sub acc k i b _)
  exact h1.less ((received_sub_due h k).filterMap _)

/-- the place in the trace of a message looked at -/
theorem gots_split : ∀ {t : List Obs} {p : List Frame} {f q}, gots t = p ++ f :: q →
    ∃ a b, t = a ++ .got f :: b ∧ gots a = p := by
  intro t
  induction t with
  | nil => intro p f q h; cases p <;> cases h
  | cons o t ih =>
    intro p f q h
    have hskip : gots [o] = [] → ∃ a b, o :: t = a ++ .got f :: b ∧ gots a = p := by
      intro ho
      rw [gots_cons, ho, List.nil_append] at h
      obtain ⟨a, b, rfl, h2⟩ := ih h
      exact ⟨o :: a, b, rfl, by rw [gots_cons, ho, h2]; rfl⟩
    cases o
    case got g =>
      rw [gots_cons] at h
      have h' : g :: gots t = p ++ f :: q := h
      cases p with
      | nil => exact ⟨[], t, by rw [(List.cons.inj h').1]; rfl, rfl⟩
      | cons x p =>
        obtain ⟨h1, h2⟩ := List.cons.inj h'
        obtain ⟨a, b, rfl, h3⟩ := ih h2
        exact ⟨.got g :: a, b, rfl, by rw [gots_cons, h3, h1]; rfl⟩
    all_goals exact hskip rfl

/-- the bytes -/
theorem Omits.flatten {d a b} (h : Omits d a b) : ∃ x y, b.flatten = x ++ d ++ y ∧ a.flatten <+ x ++ y := by
  obtain ⟨x, y, rfl, h⟩ := h
  refine ⟨x.flatten, y.flatten, by simp, ?_⟩
  rw [← List.flatten_append]
  clear * - h
  generalize x ++ y = c at h
  induction h with
  | slnil => exact List.Sublist.refl _
  | cons x _ ih => rw [List.flatten_cons]; exact ih.trans (List.sublist_append_right _ _)
  | cons_cons x _ ih => rw [List.flatten_cons, List.flatten_cons]; exact (List.Sublist.refl x).append ih

end Wm.Tunnel
