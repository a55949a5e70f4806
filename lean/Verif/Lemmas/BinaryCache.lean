import Verif.Spec.BinaryCache
import Mathlib.Tactic.ByContra

namespace Verif.BinaryCache

open Verif Spec

/-- Record table belonging to stored data starting at a given offset. -/
def recsFrom (off : Nat) : List Bytes → List Record
  | [] => []
  | d :: ds => ⟨off, d.length⟩ :: recsFrom (off + d.length) ds

def recs (ds : List Bytes) : List Record := ⟨0, 0⟩ :: recsFrom 0 ds

theorem recsFrom_length (off : Nat) (ds : List Bytes) : (recsFrom off ds).length = ds.length := by
  induction ds generalizing off with
  | nil => rfl
  | cons d ds ih => simp [recsFrom, ih]

theorem recsFrom_append (off : Nat) (ds : List Bytes) (d : Bytes) :
    recsFrom off (ds ++ [d]) = recsFrom off ds ++ [⟨off + ds.flatten.length, d.length⟩] := by
  induction ds generalizing off with
  | nil => simp [recsFrom]
  | cons a ds ih => simp [recsFrom, ih, Nat.add_assoc]

theorem recsFrom_get (off : Nat) (ds : List Bytes) (i : Nat) :
    (recsFrom off ds)[i]? = (ds[i]?).map (fun d => ⟨off + (ds.take i).flatten.length, d.length⟩) := by
  induction ds generalizing off i with
  | nil => simp [recsFrom]
  | cons a ds ih =>
    cases i with
    | zero => simp [recsFrom]
    | succ i => simp only [recsFrom, List.getElem?_cons_succ, ih]; simp [Nat.add_assoc]

theorem recs_last (ds : List Bytes) :
    ∃ b, (recs ds).getLast? = some b ∧ b.offset + b.size = ds.flatten.length := by
  rcases List.eq_nil_or_concat ds with rfl | ⟨l, d, rfl⟩
  · exact ⟨⟨0, 0⟩, rfl, rfl⟩
  · refine ⟨⟨l.flatten.length, d.length⟩, ?_, ?_⟩
    · rw [List.concat_eq_append, recs, recsFrom_append, ← List.cons_append, List.getLast?_append]
      simp
    · simp

theorem flatten_slice (ds : List Bytes) (i : Nat) (d : Bytes) (h : ds[i]? = some d) :
    ((ds.flatten).drop (ds.take i).flatten.length).take d.length = d := by
  induction ds generalizing i with
  | nil => simp at h
  | cons a ds ih =>
    cases i with
    | zero => simp at h; subst h; simp
    | succ i =>
      simp at h
      have := ih i h
      simp only [List.take_succ_cons, List.flatten_cons, List.length_append]
      rw [← List.drop_drop, List.drop_left]
      exact this

/-- System invariant. `pending` is what the lock holder has written but not yet recorded. -/
structure Inv (s : Sys) : Prop where
  recs : s.records = recs (stored s.log)
  correct : Correct s.log
  others : ∀ t, s.lock ≠ some t → s.pc t = .idle
  idleLock : ∀ t, s.lock = some t → s.pc t ≠ .idle
  fileClean : (∀ t d, s.pc t ≠ .putWritten d) → s.file = (stored s.log).flatten
  fileDirty : ∀ t d, s.pc t = .putWritten d → s.file = (stored s.log).flatten ++ d
  sought : ∀ t id r, s.pc t = .getSought id r → s.records[id]? = some r ∧ s.pos = r.offset
  atEnd : ∀ t d, s.pc t = .putSought d → s.pos = s.file.length

theorem inv_init : Inv init := by
  refine ⟨rfl, trivial, ?_, ?_, ?_, ?_, ?_, ?_⟩ <;> simp [init, stored]

theorem get_spec (ds : List Bytes) (id : Nat) (r : Record) (h : (BinaryCache.recs ds)[id]? = some r) :
    Spec.get ds id = .ok ((ds.flatten.drop r.offset).take r.size) := by
  cases id with
  | zero =>
    simp [BinaryCache.recs] at h; subst h; simp [Spec.get]
  | succ i =>
    simp only [BinaryCache.recs, List.getElem?_cons_succ, recsFrom_get, Option.map_eq_some_iff] at h
    obtain ⟨d, h1, rfl⟩ := h
    simp only [Spec.get, Nat.add_one_ne_zero, if_false, Nat.add_sub_cancel, h1, Nat.zero_add]
    rw [flatten_slice ds i d h1]

theorem get_spec_none (ds : List Bytes) (id : Nat) (h : (BinaryCache.recs ds)[id]? = none) :
    Spec.get ds id = .throws .outOfRange := by
  cases id with
  | zero => simp [BinaryCache.recs] at h
  | succ i =>
    simp only [BinaryCache.recs, List.getElem?_cons_succ, recsFrom_get, Option.map_eq_none_iff] at h
    simp [Spec.get, h]

theorem setPc_pc (s : Sys) (t : Nat) (p : Pc) (t' : Nat) :
    (setPc s t p).pc t' = if t' = t then p else s.pc t' := rfl

/-- If `t` holds the lock, everyone else is idle. -/
theorem Inv.only {s : Sys} (h : Inv s) {t : Nat} (ht : s.pc t ≠ .idle) :
    s.lock = some t ∧ ∀ t', t' ≠ t → s.pc t' = .idle := by
  have hl : s.lock = some t := by
    by_contra hne
    exact ht (h.others t hne)
  exact ⟨hl, fun t' hne => h.others t' (by rw [hl]; simpa using fun e => hne e.symm)⟩

theorem step_inv {s : Sys} (h : Inv s) (t : Nat) (op : Op) (w : Nat)
    (hw : ∀ d, s.pc t = .putSought d → d.length ≤ w) : Inv (step s t op w) := by
  unfold step
  cases hp : s.pc t with
  | idle =>
    cases hl : s.lock with
    | some _ => simpa using h
    | none =>
      have hall : ∀ t', s.pc t' = .idle := fun t' => h.others t' (by simp [hl])
      have hclean := h.fileClean (by intro t' d; simp [hall])
      dsimp only
      cases op with
      | get id =>
        refine ⟨h.recs, h.correct, ?_, ?_, ?_, ?_, ?_, ?_⟩ <;> intros <;>
          simp only [setPc] at * <;> (try split at *) <;> simp_all
      | put d =>
        refine ⟨h.recs, h.correct, ?_, ?_, ?_, ?_, ?_, ?_⟩ <;> intros <;>
          simp only [setPc] at * <;> (try split at *) <;> simp_all
  | getLocked id =>
    obtain ⟨hl, hoth⟩ := h.only (t := t) (by simp [hp])
    have hclean := h.fileClean (by
      intro t' d; by_cases e : t' = t
      · simp [e, hp]
      · simp [hoth t' e])
    dsimp only
    cases hr : s.records[id]? with
    | none =>
      dsimp only
      refine ⟨h.recs, ⟨?_, h.correct⟩, ?_, ?_, ?_, ?_, ?_, ?_⟩
      · rw [h.recs] at hr; exact (get_spec_none _ _ hr).symm
      all_goals (intros; simp only [setPc, stored] at *; (try split at *) <;> simp_all)
    | some r =>
      dsimp only
      refine ⟨h.recs, h.correct, ?_, ?_, ?_, ?_, ?_, ?_⟩
      all_goals (intros; simp only [setPc] at *; (try split at *) <;> simp_all)
      all_goals grind
  | getSought id r =>
    obtain ⟨hl, hoth⟩ := h.only (t := t) (by simp [hp])
    have hclean := h.fileClean (by
      intro t' d; by_cases e : t' = t
      · simp [e, hp]
      · simp [hoth t' e])
    obtain ⟨hr, hpos⟩ := h.sought t id r hp
    refine ⟨h.recs, ⟨?_, h.correct⟩, ?_, ?_, ?_, ?_, ?_, ?_⟩
    · rw [h.recs] at hr
      rw [get_spec _ _ _ hr, hclean, hpos]
    all_goals (intros; simp only [setPc, stored] at *; (try split at *) <;> simp_all)
  | putLocked d =>
    obtain ⟨hl, hoth⟩ := h.only (t := t) (by simp [hp])
    have hclean := h.fileClean (by
      intro t' d; by_cases e : t' = t
      · simp [e, hp]
      · simp [hoth t' e])
    refine ⟨h.recs, h.correct, ?_, ?_, ?_, ?_, ?_, ?_⟩
    all_goals (intros; simp only [setPc] at *)
    all_goals (try split at *)
    all_goals (try simp_all)
    all_goals grind
  | putSought d =>
    obtain ⟨hl, hoth⟩ := h.only (t := t) (by simp [hp])
    have hclean := h.fileClean (by
      intro t' d; by_cases e : t' = t
      · simp [e, hp]
      · simp [hoth t' e])
    have hpos := h.atEnd t d hp
    have htk : d.take w = d := List.take_of_length_le (hw d hp)
    have hfile : (osWrite s d w).file = (stored s.log).flatten ++ d := by
      simp [osWrite, htk, hpos, ← hclean]
    refine ⟨h.recs, h.correct, ?_, ?_, ?_, ?_, ?_, ?_⟩
    · intro t' ht'
      simp only [setPc, osWrite] at ht' ⊢
      split
      · simp_all
      · exact hoth t' (by assumption)
    · intro t' ht'
      simp only [setPc, osWrite] at ht' ⊢
      simp_all
    · intro hall; exact absurd (by simp [setPc]) (hall t d)
    · intro t' d' hd'
      simp only [setPc] at hd' ⊢
      split at hd'
      · cases hd'; exact hfile
      · simp [osWrite, hoth t' (by assumption)] at hd'
    · intro t' id r hd'
      simp only [setPc] at hd'
      split at hd'
      · cases hd'
      · simp [osWrite, hoth t' (by assumption)] at hd'
    · intro t' d' hd'
      simp only [setPc] at hd'
      split at hd'
      · cases hd'
      · simp [osWrite, hoth t' (by assumption)] at hd'
  | putWritten d =>
    obtain ⟨hl, hoth⟩ := h.only (t := t) (by simp [hp])
    have hdirty := h.fileDirty t d hp
    obtain ⟨b, hb1, hb2⟩ := recs_last (stored s.log)
    rw [← h.recs] at hb1
    simp only [hb1]
    refine ⟨?_, ⟨?_, h.correct⟩, ?_, ?_, ?_, ?_, ?_, ?_⟩
    · simp only [setPc, stored]
      rw [h.recs, hb2, BinaryCache.recs, BinaryCache.recs, recsFrom_append]
      simp
    · rw [h.recs, BinaryCache.recs]; simp [recsFrom_length]
    all_goals (intros; simp only [setPc, stored] at *; (try split at *) <;> simp_all)

theorem run_inv {s : Sys} (h : Inv s) (sch : Schedule) (hw : FullWrites s sch) : Inv (run s sch) := by
  induction sch generalizing s with
  | nil => exact h
  | cons x sch ih =>
    obtain ⟨t, op, w⟩ := x
    exact ih (step_inv h t op w hw.1) hw.2

end Verif.BinaryCache
