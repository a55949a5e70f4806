import Verif.Model.Table
import Mathlib.Data.List.Basic
import Mathlib.Tactic.Linarith
import Mathlib.Tactic.Push
import Mathlib.Tactic.FinCases
import Mathlib.Tactic.Ring

/-!
# C40: tables
-/

namespace Verif.Table

open Verif

variable {N : Num}

/-! ## Specification -/

/-- The lines that are not comments. -/
def dataLines (file : List Char) : List (List Char) := (lines file).filter (fun l => l.head? ≠ some '#')

/-- The number of cells of a line: one more than its delimiters. -/
def width (delims line : List Char) : Nat := (line.filter (· ∈ delims)).length + 1

/-- The lines that make the table: those that are not comments and have as many cells as the first that is not a comment. -/
def accepted (delims file : List Char) : List (List Char) :=
  match dataLines file with
  | [] => []
  | l :: ls => l :: ls.filter (fun l' => width delims l' = width delims l)

/-! ## Splitting -/

theorem split_ne_nil (delims s : List Char) : split delims s ≠ [] := by
  cases s with
  | nil => simp [split]
  | cons c cs =>
      rw [split]
      split
      · simp
      · split <;> simp

theorem split_length (delims s : List Char) : (split delims s).length = width delims s := by
  induction s with
  | nil => rfl
  | cons c cs ih =>
      rw [split]
      by_cases h : c ∈ delims
      · rw [if_pos h]
        simp only [List.length_cons, ih, width, List.filter_cons, h, decide_true, if_true]
      · rw [if_neg h]
        have hw : width delims (c :: cs) = width delims cs := by simp [width, h]
        cases hs : split delims cs with
        | nil => exact absurd hs (split_ne_nil _ _)
        | cons l ls => rw [hs] at ih; rw [hw, ← ih]; rfl

/-- A cell without delimiters stays in one piece; a delimiter ends it. -/
theorem split_cell {delims s : List Char} (hs : ∀ c ∈ s, c ∉ delims) : split delims s = [s] ∧
    ∀ d ∈ delims, ∀ t, split delims (s ++ d :: t) = s :: split delims t := by
  induction s with
  | nil => exact ⟨rfl, fun d hd t => by simp [split, hd]⟩
  | cons c s ih =>
      obtain ⟨h1, h2⟩ := ih (fun x hx => hs x (by simp [hx]))
      have hc := hs c (by simp)
      refine ⟨by rw [split, if_neg hc, h1], fun d hd t => ?_⟩
      rw [List.cons_append, split, if_neg hc, h2 d hd t]

theorem lines_line {s : List Char} (hs : '\n' ∉ s) (t : List Char) : lines (s ++ '\n' :: t) = s :: lines t := by
  induction s with
  | nil => simp [lines]
  | cons c s ih =>
      have hc : c ≠ '\n' := fun h => hs (by simp [h])
      rw [List.cons_append, lines, if_neg hc, ih (fun h => hs (by simp [h]))]

/-! ## Reading -/

/-- The loop over lines that all have the width of the table. -/
theorem fold_lines (delims : List Char) : ∀ (ls : List (List Char)) (n : Nat) (b : List N.D), n ≠ 0 →
    ls.foldl (step N delims) ⟨n, b⟩ =
      ⟨n, b ++ ((ls.filter (fun l => l.head? ≠ some '#')).filter (fun l => width delims l = n)).flatMap
        (fun l => (split delims l).map (fun c => N.toD (trim c)))⟩ := by
  intro ls
  induction ls with
  | nil => intro n b _; simp
  | cons l ls ih =>
      intro n b hn
      rw [List.foldl_cons, step]
      by_cases hc : l.head? = some '#'
      · rw [if_pos hc, ih n b hn, List.filter_cons_of_neg (by simpa using hc)]
      · rw [if_neg hc]
        dsimp only
        rw [split_length]
        by_cases hw : width delims l = n
        · rw [if_neg (by rintro ⟨-, h⟩; exact h hw), if_neg hn, ih n _ hn, List.filter_cons_of_pos (by simpa using hc),
            List.filter_cons_of_pos (by simpa using hw), List.flatMap_cons, List.append_assoc]
        · rw [if_pos ⟨hn, hw⟩, ih n b hn, List.filter_cons_of_pos (by simpa using hc),
            List.filter_cons_of_neg (by simpa using hw)]

theorem fold_start (delims : List Char) : ∀ (ls : List (List Char)),
    ls.foldl (step N delims) ⟨0, []⟩ =
      match ls.filter (fun l => l.head? ≠ some '#') with
      | [] => ⟨0, []⟩
      | l :: rest => ⟨width delims l, (l :: rest.filter (fun l' => width delims l' = width delims l)).flatMap
        (fun l => (split delims l).map (fun c => N.toD (trim c)))⟩ := by
  intro ls
  induction ls with
  | nil => rfl
  | cons l ls ih =>
      rw [List.foldl_cons, step]
      by_cases hc : l.head? = some '#'
      · rw [if_pos hc, ih, List.filter_cons_of_neg (by simpa using hc)]
      · rw [if_neg hc, List.filter_cons_of_pos (by simpa using hc)]
        dsimp only
        rw [split_length, if_neg (by simp), if_pos rfl, List.nil_append, fold_lines _ _ _ _ (by simp [width]), List.flatMap_cons]

theorem fold_accepted (delims file : List Char) : (lines file).foldl (step N delims) ⟨0, []⟩ =
    ⟨((accepted delims file).head?.map (width delims)).getD 0,
      (accepted delims file).flatMap (fun l => (split delims l).map (fun c => N.toD (trim c)))⟩ := by
  rw [fold_start]
  unfold accepted dataLines
  cases (lines file).filter (fun l => l.head? ≠ some '#') <;> rfl

theorem accepted_width (delims file : List Char) : ∀ l ∈ accepted delims file,
    width delims l = ((accepted delims file).head?.map (width delims)).getD 0 := by
  unfold accepted
  split
  · simp
  · intro l hl
    simp only [List.head?_cons, Option.map_some, Option.getD_some]
    rcases List.mem_cons.1 hl with rfl | hl
    · rfl
    · simpa using (List.mem_filter.1 hl).2

/-- Element `i * n + j` of rows of length `n` put one after the other. -/
theorem flatMap_get {α β : Type} (f : α → List β) (n : Nat) : ∀ (ls : List α), (∀ l ∈ ls, (f l).length = n) →
    (ls.flatMap f).length = ls.length * n ∧
    ∀ (i : Nat) (hi : i < ls.length) (j : Nat), j < n → (ls.flatMap f)[i * n + j]? = (f ls[i])[j]? := by
  intro ls
  induction ls with
  | nil => intro _; exact ⟨by simp, fun i hi => absurd hi (by simp)⟩
  | cons l ls ih =>
      intro h
      obtain ⟨h1, h2⟩ := ih (fun x hx => h x (by simp [hx]))
      have hl := h l (by simp)
      refine ⟨by rw [List.flatMap_cons, List.length_append, h1, hl, List.length_cons]; ring, ?_⟩
      intro i hi j hj
      rw [List.flatMap_cons]
      cases i with
      | zero => rw [Nat.zero_mul, Nat.zero_add, List.getElem?_append_left (by omega)]; rfl
      | succ i =>
          rw [List.getElem?_append_right (by rw [hl]; nlinarith), hl]
          have : (i + 1) * n + j - n = i * n + j := by
            have : (i + 1) * n = i * n + n := by ring
            omega
          rw [this, h2 i (by simpa using hi) j hj]
          rfl

/-- **C40**, reading: for every file, the table's rows are the accepted lines in order - those that are not comments and are as
wide as the first such line - and entry `(i, j)` is the parsed, trimmed cell `j` of the `i`-th; if there is no such line the
call throws. -/
theorem C40_read (delims file : List Char) :
    (dataLines file = [] → readTable N delims file = .throws .runtimeError) ∧
    (dataLines file ≠ [] → ∃ m, readTable N delims file = .ok m ∧ m.rows = (accepted delims file).length ∧ 0 < m.cols ∧
      (∀ l ∈ accepted delims file, (split delims l).length = m.cols) ∧
      ∀ (i : Nat) (hi : i < (accepted delims file).length) (j : Nat), j < m.cols →
        m.entry i j = ((split delims (accepted delims file)[i]).map (fun c => N.toD (trim c)))[j]?) := by
  unfold readTable
  rw [fold_accepted]
  dsimp only
  constructor
  · intro h
    rw [if_pos (by simp [accepted, h])]
  · intro h
    obtain ⟨l0, rest, hd⟩ := List.exists_cons_of_ne_nil h
    have hne : ((accepted delims file).head?.map (width delims)).getD 0 ≠ 0 := by simp [accepted, hd, width]
    rw [if_neg hne]
    have hw := accepted_width delims file
    set n := ((accepted delims file).head?.map (width delims)).getD 0
    have hlen : ∀ l ∈ accepted delims file, ((split delims l).map (fun c => N.toD (trim c))).length = n := by
      intro l hl; rw [List.length_map, split_length, hw l hl]
    obtain ⟨h1, h2⟩ := flatMap_get (fun l => (split delims l).map (fun c => N.toD (trim c))) n _ hlen
    have hdiv : ((accepted delims file).flatMap fun l => (split delims l).map (fun c => N.toD (trim c))).length / n =
        (accepted delims file).length := by
      rw [h1]; exact Nat.mul_div_cancel _ (Nat.pos_of_ne_zero hne)
    refine ⟨_, rfl, hdiv, Nat.pos_of_ne_zero hne, fun l hl => by rw [split_length]; exact hw l hl, ?_⟩
    intro i hi j hj
    dsimp only at hj ⊢
    rw [if_pos ⟨by rw [hdiv]; exact hi, hj⟩, h2 i hi j hj]

/-- The file made of the given lines. -/
def unlines (ls : List (List Char)) : List Char := ls.flatMap (fun l => l ++ ['\n'])

theorem lines_unlines : ∀ (ls : List (List Char)), (∀ l ∈ ls, '\n' ∉ l) → lines (unlines ls) = ls := by
  intro ls
  induction ls with
  | nil => intro _; rfl
  | cons l ls ih =>
      intro h
      have : unlines (l :: ls) = l ++ '\n' :: unlines ls := by simp [unlines]
      rw [this, lines_line (h l (by simp)), ih (fun x hx => h x (by simp [hx]))]

/-- C40: a comment line, wherever it stands, does not change the result. -/
theorem C40_comment_ignored (delims : List Char) (a b : List (List Char)) (text : List Char) (ha : ∀ l ∈ a, '\n' ∉ l)
    (hb : ∀ l ∈ b, '\n' ∉ l) (ht : '\n' ∉ text) :
    readTable N delims (unlines (a ++ ('#' :: text) :: b)) = readTable N delims (unlines (a ++ b)) := by
  have hc : '\n' ∉ '#' :: text := by simpa using ht
  have h1 : lines (unlines (a ++ ('#' :: text) :: b)) = a ++ ('#' :: text) :: b := by
    apply lines_unlines
    intro l hl
    simp only [List.mem_append, List.mem_cons] at hl
    rcases hl with hl | rfl | hl
    · exact ha l hl
    · exact hc
    · exact hb l hl
  have h2 : lines (unlines (a ++ b)) = a ++ b := by
    apply lines_unlines
    intro l hl
    rcases List.mem_append.1 hl with hl | hl
    · exact ha l hl
    · exact hb l hl
  unfold readTable
  rw [h1, h2, List.foldl_append, List.foldl_cons, List.foldl_append]
  have : ∀ s : St N, step N delims s ('#' :: text) = s := fun s => by rw [step, if_pos (by simp)]
  rw [this]

/-- C40: a line of the wrong width after the first row does not change the result. -/
theorem C40_wrong_width_skipped (delims : List Char) (a b : List (List Char)) (first bad : List Char) (ha : ∀ l ∈ a, '\n' ∉ l)
    (hb : ∀ l ∈ b, '\n' ∉ l) (hf : '\n' ∉ first) (hbad : '\n' ∉ bad) (hnc : first.head? ≠ some '#')
    (hw : width delims bad ≠ width delims first) :
    readTable N delims (unlines (first :: a ++ bad :: b)) = readTable N delims (unlines (first :: a ++ b)) := by
  have h1 : lines (unlines (first :: a ++ bad :: b)) = first :: a ++ bad :: b := by
    apply lines_unlines
    intro l hl
    simp only [List.cons_append, List.mem_append, List.mem_cons] at hl
    rcases hl with rfl | hl | rfl | hl
    · exact hf
    · exact ha l hl
    · exact hbad
    · exact hb l hl
  have h2 : lines (unlines (first :: a ++ b)) = first :: a ++ b := by
    apply lines_unlines
    intro l hl
    simp only [List.cons_append, List.mem_append, List.mem_cons] at hl
    rcases hl with rfl | hl | hl
    · exact hf
    · exact ha l hl
    · exact hb l hl
  unfold readTable
  rw [h1, h2]
  have hstart : step N delims ⟨0, []⟩ first = ⟨width delims first, (split delims first).map (fun c => N.toD (trim c))⟩ := by
    rw [step, if_neg hnc]
    dsimp only
    rw [if_neg (by simp), if_pos rfl, split_length, List.nil_append]
  rw [List.cons_append, List.cons_append, List.foldl_cons, List.foldl_cons, hstart, List.foldl_append, List.foldl_append,
    fold_lines _ a _ _ (by simp [width]), List.foldl_cons]
  have : ∀ b' : List N.D, step N delims ⟨width delims first, b'⟩ bad = ⟨width delims first, b'⟩ := by
    intro b'
    rw [step]
    split
    · rfl
    · dsimp only
      rw [if_pos ⟨by simp [width], by rw [split_length]; exact hw⟩]
  rw [this]

/-- C40, a trap: a blank first line makes the table one column wide, and every row with more than one cell is dropped. -/
theorem C40_leading_blank_line_drops_the_rows (delims : List Char) (rows : List (List Char)) (hn : ∀ l ∈ rows, '\n' ∉ l)
    (hw : ∀ l ∈ rows, 1 < width delims l) :
    ∃ m, readTable N delims (unlines ([] :: rows)) = .ok m ∧ m.rows = 1 ∧ m.cols = 1 ∧ m.entry 0 0 = some (N.toD []) := by
  have h1 : lines (unlines ([] :: rows)) = [] :: rows := by
    apply lines_unlines
    intro l hl
    rcases List.mem_cons.1 hl with rfl | hl
    · simp
    · exact hn l hl
  have h2 : (rows.filter (fun l => l.head? ≠ some '#')).filter (fun l => width delims l = width delims []) = [] := by
    rw [List.filter_eq_nil_iff]
    intro l hl
    have := hw l (List.mem_filter.1 hl).1
    simp only [decide_eq_true_eq]
    simp only [width, List.filter_nil, List.length_nil] at this ⊢
    omega
  unfold readTable
  rw [h1, List.foldl_cons]
  have hstart : step N delims ⟨0, []⟩ [] = ⟨width delims [], [N.toD []]⟩ := by
    rw [step, if_neg (by simp)]
    dsimp only
    rw [if_neg (by simp), if_pos rfl, split_length]
    rfl
  rw [hstart, fold_lines _ _ _ _ (by simp [width]), h2]
  refine ⟨_, if_neg (by simp [width]), ?_, ?_, ?_⟩
  · simp [width]
  · simp [width]
  · simp [width]

/-! ## Round trip -/

/-- What is assumed about the conversions: parsing the printed number gives it back, and a printed number is not empty, has no
white space, newline or delimiter, and does not start with `#`. -/
structure Num.Ok (N : Num) (delims : List Char) : Prop where
  round : ∀ x, N.toD (N.toStr x) = x
  clean : ∀ x, ∀ c ∈ N.toStr x, isSpace c = false ∧ c ∉ delims ∧ c ≠ '#'
  ne : ∀ x, N.toStr x ≠ []

theorem trim_clean {s : List Char} (h : ∀ c ∈ s, isSpace c = false) : trim s = s := by
  have : ∀ {s : List Char}, (∀ c ∈ s, isSpace c = false) → s.dropWhile isSpace = s := by
    intro s h
    cases s with
    | nil => rfl
    | cons c s => rw [List.dropWhile_cons, h c (by simp)]; simp
  unfold trim
  rw [this h, this (fun c hc => h c (by simpa using hc)), List.reverse_reverse]

theorem trim_cr {s : List Char} (h : ∀ c ∈ s, isSpace c = false) (hne : s ≠ []) : trim (s ++ ['\r']) = s := by
  have h1 : (s ++ ['\r']).dropWhile isSpace = s ++ ['\r'] := by
    cases s with
    | nil => exact absurd rfl hne
    | cons c s => rw [List.cons_append, List.dropWhile_cons, h c (by simp)]; simp
  have h2 : ∀ {s : List Char}, (∀ c ∈ s, isSpace c = false) → s.dropWhile isSpace = s := by
    intro s h
    cases s with
    | nil => rfl
    | cons c s => rw [List.dropWhile_cons, h c (by simp)]; simp
  unfold trim
  rw [h1, List.reverse_append, List.reverse_singleton, List.singleton_append, List.dropWhile_cons,
    show isSpace '\r' = true from rfl, if_pos rfl, h2 (fun c hc => h c (by simpa using hc)), List.reverse_reverse]

/-- The text of a row, without its newline. -/
def rowText (N : Num) (delim : Char) : List N.D → List Char
  | [] => []
  | [x] => N.toStr x
  | x :: y :: xs => N.toStr x ++ delim :: rowText N delim (y :: xs)

theorem writeRow_eq (delim : Char) : ∀ xs : List N.D, writeRow N delim xs = rowText N delim xs ++ ['\n']
  | [] => rfl
  | [x] => rfl
  | x :: y :: xs => by
      rw [writeRow, rowText, writeRow_eq delim (y :: xs), List.append_assoc, List.cons_append]

theorem split_rowText {delims : List Char} (h : N.Ok delims) {delim : Char} (hd : delim ∈ delims) : ∀ (xs : List N.D), xs ≠ [] →
    split delims (rowText N delim xs) = xs.map N.toStr
  | [], h0 => absurd rfl h0
  | [x], _ => (split_cell (fun c hc => (h.clean x c hc).2.1)).1
  | x :: y :: xs, _ => by
      rw [rowText, (split_cell (fun c hc => (h.clean x c hc).2.1)).2 delim hd, split_rowText h hd (y :: xs) (by simp)]
      rfl

theorem rowText_no_newline {delims : List Char} (h : N.Ok delims) {delim : Char} (hn : delim ≠ '\n') : ∀ (xs : List N.D),
    '\n' ∉ rowText N delim xs
  | [] => by simp [rowText]
  | [x] => fun hm => by have := (h.clean x _ hm).1; exact absurd this (by decide)
  | x :: y :: xs => fun hm => by
      rw [rowText, List.mem_append, List.mem_cons] at hm
      rcases hm with hm | hm | hm
      · have := (h.clean x _ hm).1; exact absurd this (by decide)
      · exact hn hm.symm
      · exact rowText_no_newline h hn (y :: xs) hm

theorem rowText_head {delims : List Char} (h : N.Ok delims) (delim : Char) (xs : List N.D) (hx : xs ≠ []) :
    (rowText N delim xs).head? ≠ some '#' := by
  have hcl : ∀ x : N.D, ∀ t, (N.toStr x ++ t).head? ≠ some '#' := by
    intro x t hh
    cases hs : N.toStr x with
    | nil => exact h.ne x hs
    | cons c cs =>
        rw [hs, List.cons_append, List.head?_cons] at hh
        exact (h.clean x c (by rw [hs]; simp)).2.2 (Option.some.inj hh)
  cases xs with
  | nil => exact absurd rfl hx
  | cons x xs =>
      cases xs with
      | nil => rw [rowText, ← List.append_nil (N.toStr x)]; exact hcl x []
      | cons y xs => rw [rowText]; exact hcl x _

/-- `m` is the table with the given rows. -/
def Mat.Is (m : Mat N) (rows : List (List N.D)) (n : Nat) : Prop :=
  m.rows = rows.length ∧ m.cols = n ∧ ∀ i j, m.entry i j = if j < n then (rows[i]?.bind (·[j]?)) else none

theorem readTable_entry_none (delims file : List Char) {m : Mat N} (h : readTable N delims file = .ok m) (i j : Nat)
    (hij : ¬ (i < m.rows ∧ j < m.cols)) : m.entry i j = none := by
  unfold readTable at h
  dsimp only at h
  split at h
  · cases h
  · cases h
    exact if_neg hij

/-- **C40**, round trip: every table with at least one row and one column, written with a delimiter the reader knows, is read back
unchanged. -/
theorem C40_round_trip {delims : List Char} (h : N.Ok delims) {delim : Char} (hd : delim ∈ delims) (hn : delim ≠ '\n')
    (rows : List (List N.D)) (n : Nat) (hr : rows ≠ []) (hn0 : 0 < n) (hw : ∀ r ∈ rows, r.length = n) :
    ∃ m, readTable N delims (writeTable N delim rows) = .ok m ∧ m.Is rows n := by
  have hfile : writeTable N delim rows = unlines (rows.map (rowText N delim)) := by
    unfold writeTable unlines
    rw [List.flatMap_map, ← List.flatMap_def]
    congr 1
    funext r
    exact writeRow_eq delim r
  have hlines : lines (writeTable N delim rows) = rows.map (rowText N delim) := by
    rw [hfile]
    apply lines_unlines
    intro l hl
    obtain ⟨r, -, rfl⟩ := List.mem_map.1 hl
    exact rowText_no_newline h hn r
  have hrne : ∀ r ∈ rows, r ≠ [] := fun r hr' h0 => by have := hw r hr'; rw [h0] at this; simp at this; omega
  have hdata : dataLines (writeTable N delim rows) = rows.map (rowText N delim) := by
    unfold dataLines
    rw [hlines, List.filter_eq_self]
    intro l hl
    obtain ⟨r, hr', rfl⟩ := List.mem_map.1 hl
    simpa using rowText_head h delim r (hrne r hr')
  have hwid : ∀ r ∈ rows, width delims (rowText N delim r) = n := by
    intro r hr'
    rw [← split_length, split_rowText h hd r (hrne r hr'), List.length_map, hw r hr']
  have hacc : accepted delims (writeTable N delim rows) = rows.map (rowText N delim) := by
    unfold accepted
    rw [hdata]
    cases rows with
    | nil => exact absurd rfl hr
    | cons r rows =>
        simp only [List.map_cons]
        congr 1
        rw [List.filter_eq_self]
        intro l hl
        obtain ⟨r', hr', rfl⟩ := List.mem_map.1 hl
        simp [hwid r' (by simp [hr']), hwid r (by simp)]
  obtain ⟨m, hm, h1, h2, h3, h4⟩ := (C40_read (N := N) delims (writeTable N delim rows)).2 (by
    rw [hdata]; simpa using hr)
  rw [hacc] at h1 h3
  have hcols : m.cols = n := by
    obtain ⟨r, hr'⟩ := List.exists_mem_of_ne_nil _ hr
    rw [← h3 _ (List.mem_map_of_mem hr'), split_length, hwid r hr']
  refine ⟨m, hm, by simpa using h1, hcols, ?_⟩
  intro i j
  by_cases hi : i < rows.length
  · by_cases hj : j < n
    · rw [if_pos hj]
      have := h4 i (by rw [hacc]; simpa using hi) j (by omega)
      rw [this]
      have hget : (accepted delims (writeTable N delim rows))[i]'(by rw [hacc]; simpa using hi) = rowText N delim rows[i] := by
        simp [hacc]
      rw [hget, split_rowText h hd _ (hrne _ (List.getElem_mem _)), List.map_map, List.getElem?_eq_getElem hi, Option.bind_some,
        List.getElem?_map]
      have hf : ((fun c => N.toD (trim c)) ∘ N.toStr) = id := by
        funext x
        simp only [Function.comp, id]
        rw [trim_clean (fun c hc => (h.clean x c hc).1), h.round]
      rw [hf]; simp
    · rw [if_neg hj]
      exact readTable_entry_none delims _ hm i j (fun hh => hj (by omega))
  · have hno : rows[i]? = none := List.getElem?_eq_none (by omega)
    rw [hno, Option.bind_none, ite_self]
    exact readTable_entry_none delims _ hm i j (fun hh => hi (by simp at h1; omega))

/-- C40: a table without rows is written as an empty file, which is refused. -/
theorem C40_empty_table (delims : List Char) (delim : Char) :
    readTable N delims (writeTable N delim []) = .throws .runtimeError := rfl

/-- C40: with Windows line ends the cells are the same: the carriage return is trimmed from the last cell. -/
theorem C40_carriage_return {delims : List Char} (h : N.Ok delims) (hcr : '\r' ∉ delims) {delim : Char} (hd : delim ∈ delims) :
    ∀ (xs : List N.D), xs ≠ [] →
    (split delims (rowText N delim xs ++ ['\r'])).map (fun c => N.toD (trim c)) = xs
  | [], h0 => absurd rfl h0
  | [x], _ => by
      rw [rowText, (split_cell (s := N.toStr x ++ ['\r']) (by
        intro c hc
        rcases List.mem_append.1 hc with hc | hc
        · exact (h.clean x c hc).2.1
        · rw [List.mem_singleton] at hc; rw [hc]; exact hcr)).1, List.map_singleton,
        trim_cr (fun c hc => (h.clean x c hc).1) (h.ne x), h.round]
  | x :: y :: xs, _ => by
      rw [rowText, List.append_assoc, List.cons_append, (split_cell (fun c hc => (h.clean x c hc).2.1)).2 delim hd, List.map_cons,
        trim_clean (fun c hc => (h.clean x c hc).1), h.round, C40_carriage_return h hcr hd (y :: xs) (by simp)]

/-! ## Example -/

/-- Numbers `0` and `1`, printed as digits. -/
def bits : Num := ⟨Bool, fun b => if b then ['1'] else ['0'], fun s => s = ['1']⟩

theorem bits_ok : bits.Ok [' ', '\t', ','] := by
  refine ⟨?_, ?_, ?_⟩
  · intro x; cases x <;> rfl
  · intro x c hc
    cases x <;> simp [bits] at hc <;> subst hc <;> decide
  · intro x; cases x <;> simp [bits]

/-- The hypotheses of the round trip are met by a two by two table. -/
example : ∃ m, readTable bits [' ', '\t', ','] (writeTable bits ' ' [[true, false], [false, true]]) = .ok m ∧
    m.Is [[true, false], [false, true]] 2 :=
  C40_round_trip bits_ok (by simp) (by simp) _ 2 (by simp) (by omega) (by intro r hr; fin_cases hr <;> rfl)

end Verif.Table
