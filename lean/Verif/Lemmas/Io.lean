import Verif.Model.Io
import Mathlib.Tactic.Ring
import Mathlib.Tactic.Linarith

/-! Round-trip lemmas for the stream codecs. -/

namespace Verif.Io

open Verif RbfModel

/-- Reading what was written gives the value back and stops exactly at the end of what was written. -/
def RoundTrips (c : Codec α) (x : α) : Prop :=
  ∀ tail, c.read ⟨c.write x ++ tail, false⟩ = .ok (x, ⟨tail, false⟩)

theorem isRead_append (dst bs tail : List Byte) (h : bs.length = dst.length) :
    isRead dst ⟨bs ++ tail, false⟩ = (bs, ⟨tail, false⟩) := by
  simp [isRead, ← h]

theorem encLE_length (k n : Nat) : (encLE k n).length = k := by
  induction k generalizing n with
  | zero => rfl
  | succ k ih => simp [encLE, ih]

theorem decLE_encLE (k n : Nat) (h : n < 256 ^ k) : decLE (encLE k n) = n := by
  induction k generalizing n with
  | zero => simp at h; simp [encLE, decLE, h]
  | succ k ih =>
      have : n / 256 < 256 ^ k := by
        rw [pow_succ] at h
        exact Nat.div_lt_of_lt_mul (by linarith)
      simp [encLE, decLE, ih _ this]
      omega

/-- A trivially copyable type whose bytes determine it. -/
structure Pod.Good (p : Pod α) : Prop where
  len : ∀ x, (p.enc x).length = p.size
  dec : ∀ x, p.dec (p.enc x) = x

theorem u64_good : u64.Good where
  len x := encLE_length 8 _
  dec x := by
    simp only [u64]
    rw [decLE_encLE _ _ (by have := x.isLt; norm_num at this ⊢; exact this)]
    simp

theorem i32_good : i32.Good where
  len x := encLE_length 4 _
  dec x := by
    simp only [i32]
    rw [decLE_encLE _ _ (by have := x.isLt; norm_num at this ⊢; exact this)]
    simp

theorem bool1_good : bool1.Good where
  len x := rfl
  dec x := by cases x <;> rfl

theorem char1_good : char1.Good where
  len x := rfl
  dec x := rfl

theorem pod_roundTrips {p : Pod α} (h : p.Good) (x : α) : RoundTrips (pod p) x := by
  intro tail
  have := isRead_append (p.enc p.dflt) (p.enc x) tail (by simp [h.len])
  simp [pod, this, h.dec]

theorem flatMap_length {p : Pod α} (h : p.Good) (xs : List α) :
    (xs.flatMap p.enc).length = xs.length * p.size := by
  induction xs with
  | nil => simp
  | cons x xs ih => simp [h.len, Nat.succ_mul, Nat.add_comm] at *; try rw [← ih]

theorem replicate_length {p : Pod α} (h : p.Good) (n : Nat) :
    ((List.replicate n (p.enc p.dflt)).flatten).length = n * p.size := by
  induction n with
  | zero => simp
  | succ n ih => simp [List.replicate_succ, h.len, Nat.succ_mul, Nat.add_comm] at *

theorem decMany_flatMap {p : Pod α} (h : p.Good) (xs : List α) :
    decMany p xs.length (xs.flatMap p.enc) = xs := by
  induction xs with
  | nil => rfl
  | cons x xs ih =>
      have h1 : List.take p.size (p.enc x ++ xs.flatMap p.enc) = p.enc x := by
        rw [← h.len x]; simp
      have h2 : List.drop p.size (p.enc x ++ xs.flatMap p.enc) = xs.flatMap p.enc := by
        rw [← h.len x]; simp
      simp only [List.length_cons, List.flatMap_cons, decMany, h1, h2, h.dec, ih]

theorem readBuffer_append {p : Pod α} (h : p.Good) (xs : List α) (n : Nat) (hn : n = xs.length) (tail : List Byte) :
    readBuffer p n ⟨xs.flatMap p.enc ++ tail, false⟩ = (xs, ⟨tail, false⟩) := by
  subst hn
  have := isRead_append ((List.replicate xs.length (p.enc p.dflt)).flatten) (xs.flatMap p.enc) tail
    (by rw [flatMap_length h, replicate_length h])
  simp [readBuffer, this, decMany_flatMap h]

variable {alloc : Nat → Bool}

theorem vecPod_roundTrips {p : Pod α} (h : p.Good) (xs : List α) (hl : xs.length < 2 ^ 64)
    (ha : alloc xs.length = true) : RoundTrips (vecPod alloc p) xs := by
  intro tail
  have h1 := pod_roundTrips u64_good (BitVec.ofNat 64 xs.length) (xs.flatMap p.enc ++ tail)
  simp only [pod] at h1
  simp only [vecPod, List.append_assoc]
  simp only [pod] at *
  rw [h1]
  simp only [Outcome.ok_bind, BitVec.toNat_ofNat, Nat.mod_eq_of_lt hl, ha, if_true, Outcome.pure_eq]
  rw [readBuffer_append h xs _ rfl]

theorem readMany_roundTrips {c : Codec α} (xs : List α) (h : ∀ x ∈ xs, RoundTrips c x) (tail : List Byte) :
    readMany c xs.length ⟨xs.flatMap c.write ++ tail, false⟩ = .ok (xs, ⟨tail, false⟩) := by
  induction xs with
  | nil => rfl
  | cons x xs ih =>
      have hx := h x (by simp) (xs.flatMap c.write ++ tail)
      simp only [List.flatMap_cons, List.append_assoc, List.length_cons, readMany, hx, Outcome.ok_bind,
        ih (fun y hy => h y (by simp [hy])), Outcome.pure_eq]

theorem vecOf_roundTrips {c : Codec α} (xs : List α) (h : ∀ x ∈ xs, RoundTrips c x) (hl : xs.length < 2 ^ 64)
    (ha : alloc xs.length = true) : RoundTrips (vecOf alloc c) xs := by
  intro tail
  have h1 := pod_roundTrips u64_good (BitVec.ofNat 64 xs.length) (xs.flatMap c.write ++ tail)
  simp only [vecOf, List.append_assoc]
  simp only [pod] at *
  rw [h1]
  simp only [Outcome.ok_bind, BitVec.toNat_ofNat, Nat.mod_eq_of_lt hl, ha, if_true]
  exact readMany_roundTrips xs h tail

/-- A matrix value of the declared shape, of representable size. -/
structure Mx.Fits (m : Mx) (rows cols : Option Nat) : Prop where
  rows : rows.elim (m.rows < 2 ^ 64) (· = m.rows)
  cols : cols.elim (m.cols < 2 ^ 64) (· = m.cols)
  data : m.data.length = m.rows * m.cols

theorem matrix_roundTrips {rows cols : Option Nat} (m : Mx) (h : m.Fits rows cols)
    (ha : alloc (m.rows * m.cols) = true) : RoundTrips (matrix alloc rows cols) m := by
  intro tail
  obtain ⟨r, c, d⟩ := m
  obtain ⟨h1, h2, h3⟩ := h
  simp only at h1 h2 h3 ha
  have hp : ∀ (n : Nat) t, n < 2 ^ 64 →
      (pod u64).read ⟨u64.enc (BitVec.ofNat 64 n) ++ t, false⟩ = .ok (BitVec.ofNat 64 n, ⟨t, false⟩) := by
    intro n t _
    exact pod_roundTrips u64_good (BitVec.ofNat 64 n) t
  have hb := readBuffer_append u64_good d (r * c) h3.symm tail
  cases rows with
  | none =>
      cases cols with
      | none =>
          simp only [Option.elim] at h1 h2
          simp only [matrix, List.append_assoc, hp r _ h1, hp c _ h2, Outcome.ok_bind, Outcome.pure_eq,
            BitVec.toNat_ofNat, Nat.mod_eq_of_lt h1, Nat.mod_eq_of_lt h2, ha, if_true, hb]
      | some c' =>
          simp only [Option.elim] at h1 h2; subst h2
          simp only [matrix, List.append_assoc, hp r _ h1, Outcome.ok_bind, Outcome.pure_eq, List.nil_append,
            BitVec.toNat_ofNat, Nat.mod_eq_of_lt h1, ha, if_true, hb]
  | some r' =>
      cases cols with
      | none =>
          simp only [Option.elim] at h1 h2; subst h1
          simp only [matrix, List.append_assoc, hp c _ h2, Outcome.ok_bind, Outcome.pure_eq, List.nil_append,
            BitVec.toNat_ofNat, Nat.mod_eq_of_lt h2, ha, if_true, hb]
      | some c' =>
          simp only [Option.elim] at h1 h2; subst h1; subst h2
          simp only [matrix, Outcome.ok_bind, Outcome.pure_eq, List.nil_append, ha, if_true, hb]

theorem bytesName_nameBytes (k : Kind) : bytesName (nameBytes k.shortName) = k.shortName := by
  cases k <;> decide

theorem nameBytes_length (k : Kind) : (nameBytes k.shortName).length = 3 := by
  cases k <;> decide

theorem makeRbf_shortName (identity : List Dbl) (k : Kind) (p : List Dbl) :
    makeRbf identity k.shortName p = newRbf identity k p := by
  cases k <;> rfl

end Verif.Io
