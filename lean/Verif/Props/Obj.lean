import Verif.Spec.Obj
import Verif.Props.Table

/-!
# C78: the OBJ file of a mesh
-/

namespace Verif.Obj

open Verif Verif.Table

variable {N : Num}

theorem decimal_digits (n : Nat) : ∀ c ∈ decimal n, c.isDigit = true := fun _ hc => Nat.isDigit_of_mem_toDigits (by decide) (by decide) hc

theorem number_decimal (n : Nat) : number (decimal n) = some n := by
  have h1 : decimal n ≠ [] ∧ (decimal n).all Char.isDigit = true := ⟨Nat.toDigits_ne_nil, List.all_eq_true.2 (decimal_digits n)⟩
  unfold number
  rw [if_pos h1]
  congr 1
  clear h1
  unfold decimal
  induction n using Nat.strongRecOn with
  | ind n ih =>
    by_cases h : n < 10
    · rw [Nat.toDigits_of_lt_base h]
      simp [Nat.toNat_digitChar_of_lt_ten h]
    · rw [Nat.toDigits_of_base_le (by decide) (by omega), List.foldl_append, ih (n / 10) (by omega)]
      simp only [List.foldl_cons, List.foldl_nil]
      rw [Nat.toNat_digitChar_of_lt_ten (Nat.mod_lt _ (by decide))]
      omega

theorem digit_clean {c : Char} (h : c.isDigit = true) : c ∉ [' '] ∧ c ≠ '\n' := by
  constructor
  · rw [List.mem_singleton]; rintro rfl; revert h; decide
  · rintro rfl; revert h; decide

/-- the text of a vertex -/
def vertexText (v : N.D × N.D × N.D) : List Char := 'v' :: ' ' :: (N.toStr v.1 ++ ' ' :: (N.toStr v.2.1 ++ ' ' :: N.toStr v.2.2))

/-- the text of a face -/
def faceText (f : Nat × Nat × Nat) : List Char := 'f' :: ' ' :: (decimal (f.1 + 1) ++ ' ' :: (decimal (f.2.1 + 1) ++ ' ' :: decimal (f.2.2 + 1)))

/-- the comment -/
def note (m : Mesh N) : List (List Char) := if m.faces.length = 0 then [if m.entire then "# entire".toList else "# empty".toList] else []

theorem export_eq (m : Mesh N) : exportObj m = unlines (note m ++ (m.vertices.map vertexText ++ m.faces.map faceText)) := by
  unfold exportObj
  have e1 : header m = unlines (note m) := by
    unfold header note unlines
    split
    · cases m.entire <;> rfl
    · rfl
  have e2 : m.vertices.flatMap vertexLine = unlines (m.vertices.map vertexText) := by
    unfold unlines
    rw [List.flatMap_map]
    congr 1
    funext v
    have : "v ".toList = ['v', ' '] := rfl
    simp [vertexLine, vertexText, this]
  have e3 : m.faces.flatMap faceLine = unlines (m.faces.map faceText) := by
    unfold unlines
    rw [List.flatMap_map]
    congr 1
    funext v
    have : "f ".toList = ['f', ' '] := rfl
    simp [faceLine, faceText, this]
  rw [e1, e2, e3]
  unfold unlines
  rw [List.flatMap_append, List.flatMap_append, List.append_assoc]

theorem split_words {k a b c : List Char} (hk : ∀ x ∈ k, x ∉ [' ']) (ha : ∀ x ∈ a, x ∉ [' ']) (hb : ∀ x ∈ b, x ∉ [' ']) (hc : ∀ x ∈ c, x ∉ [' ']) :
    split [' '] (k ++ ' ' :: (a ++ ' ' :: (b ++ ' ' :: c))) = [k, a, b, c] := by
  have hs : ' ' ∈ [' '] := List.mem_singleton.2 rfl
  rw [(split_cell hk).2 ' ' hs, (split_cell ha).2 ' ' hs, (split_cell hb).2 ' ' hs, (split_cell hc).1]

theorem parse_vertex (h : N.Ok [' ']) (v : N.D × N.D × N.D) : parseLine N (vertexText v) = some (.vertex v) := by
  have hs := split_words (k := ['v']) (by simp) (fun x hx => (h.clean v.1 x hx).2.1) (fun x hx => (h.clean v.2.1 x hx).2.1) (fun x hx => (h.clean v.2.2 x hx).2.1)
  have e : ['v'] ++ ' ' :: (N.toStr v.1 ++ ' ' :: (N.toStr v.2.1 ++ ' ' :: N.toStr v.2.2)) = vertexText v := rfl
  rw [e] at hs
  unfold parseLine
  rw [if_neg (by simp [vertexText]), hs]
  simp only [if_true, h.round]

theorem parse_face (f : Nat × Nat × Nat) : parseLine N (faceText f) = some (.face f) := by
  have hd : ∀ n, ∀ x ∈ decimal n, x ∉ [' '] := fun n x hx => (digit_clean (decimal_digits n x hx)).1
  have hs := split_words (k := ['f']) (by simp) (hd (f.1 + 1)) (hd (f.2.1 + 1)) (hd (f.2.2 + 1))
  have e : ['f'] ++ ' ' :: (decimal (f.1 + 1) ++ ' ' :: (decimal (f.2.1 + 1) ++ ' ' :: decimal (f.2.2 + 1))) = faceText f := rfl
  rw [e] at hs
  unfold parseLine
  rw [if_neg (by simp [faceText]), hs]
  simp [number_decimal, corners]

theorem mapM_some {α β : Type} (f : α → Option β) (g : α → β) : ∀ l : List α, (∀ x ∈ l, f x = some (g x)) → l.mapM f = some (l.map g)
  | [], _ => rfl
  | x :: l, h => by
      rw [List.mapM_cons, h x List.mem_cons_self, mapM_some f g l fun y hy => h y (List.mem_cons_of_mem _ hy)]
      rfl

theorem note_comment (m : Mesh N) (l : List Char) (hl : l ∈ note m) : l.head? = some '#' ∧ '\n' ∉ l := by
  unfold note at hl
  split at hl
  · rw [List.mem_singleton] at hl
    subst hl
    cases m.entire <;> decide
  · cases hl

theorem filterMap_vertex {D : Type} (vs : List (D × D × D)) : (vs.map Line.vertex).filterMap Line.vertex? = vs := by
  induction vs with
  | nil => rfl
  | cons v vs ih => exact congrArg (v :: ·) ih

theorem filterMap_face {D : Type} (fs : List (Nat × Nat × Nat)) : (fs.map (Line.face (D := D))).filterMap Line.face? = fs := by
  induction fs with
  | nil => rfl
  | cons v vs ih => exact congrArg (v :: ·) ih

theorem filterMap_comment {D : Type} (ts : List (List Char)) : (ts.map (Line.comment (D := D))).filterMap Line.comment? = ts := by
  induction ts with
  | nil => rfl
  | cons v vs ih => exact congrArg (v :: ·) ih

theorem filterMap_none {α β γ : Type} (f : β → Option γ) (g : α → β) (h : ∀ x, f (g x) = none) (l : List α) : (l.map g).filterMap f = [] := by
  rw [List.filterMap_map, List.filterMap_eq_nil_iff]
  exact fun x _ => h x

theorem pick {D : Type} (ts : List (List Char)) (vs : List (D × D × D)) (fs : List (Nat × Nat × Nat)) :
    (ts.map (Line.comment (D := D)) ++ (vs.map Line.vertex ++ fs.map Line.face)).filterMap Line.vertex? = vs ∧
      (ts.map (Line.comment (D := D)) ++ (vs.map Line.vertex ++ fs.map Line.face)).filterMap Line.face? = fs ∧
      (ts.map (Line.comment (D := D)) ++ (vs.map Line.vertex ++ fs.map Line.face)).filterMap Line.comment? = ts := by
  refine ⟨?_, ?_, ?_⟩
  · rw [List.filterMap_append, List.filterMap_append, filterMap_none Line.vertex? Line.comment fun _ => rfl, filterMap_none Line.vertex? Line.face fun _ => rfl,
      filterMap_vertex, List.nil_append, List.append_nil]
  · rw [List.filterMap_append, List.filterMap_append, filterMap_none Line.face? Line.comment fun _ => rfl, filterMap_none Line.face? Line.vertex fun _ => rfl,
      filterMap_face, List.nil_append, List.nil_append]
  · rw [List.filterMap_append, List.filterMap_append, filterMap_none Line.comment? Line.vertex fun _ => rfl, filterMap_none Line.comment? Line.face fun _ => rfl,
      filterMap_comment, List.nil_append, List.append_nil]

/-- **C78**: reading the file of a mesh gives its vertices and its faces, exactly and in order; there is a comment exactly if there are no faces, which tells whether
the mesh is entire or empty. -/
theorem C78_round_trip (h : N.Ok [' ']) (m : Mesh N) : readObj N (exportObj m) =
    some (m.vertices, m.faces, if m.faces = [] then [if m.entire then "# entire".toList else "# empty".toList] else []) := by
  have hn : ∀ l ∈ note m ++ (m.vertices.map vertexText ++ m.faces.map faceText), '\n' ∉ l := by
    intro l hl
    rcases List.mem_append.1 hl with hl | hl
    · exact (note_comment m l hl).2
    rcases List.mem_append.1 hl with hl | hl
    · obtain ⟨v, -, rfl⟩ := List.mem_map.1 hl
      have hc : ∀ x, '\n' ∉ N.toStr x := fun x hx => by
        have := (h.clean x '\n' hx).1
        revert this; decide
      simp [vertexText, hc]
    · obtain ⟨f, -, rfl⟩ := List.mem_map.1 hl
      have hc : ∀ n, '\n' ∉ decimal n := fun n hx => (digit_clean (decimal_digits n _ hx)).2 rfl
      simp [faceText, hc]
  unfold readObj
  rw [export_eq, lines_unlines _ hn, List.mapM_append, List.mapM_append]
  have e1 : (note m).mapM (parseLine N) = some ((note m).map .comment) :=
    mapM_some _ _ _ fun l hl => by unfold parseLine; rw [if_pos (note_comment m l hl).1]
  have e2 : (m.vertices.map vertexText).mapM (parseLine N) = some (m.vertices.map .vertex) := by
    have := mapM_some (parseLine N ∘ vertexText) Line.vertex m.vertices fun v _ => parse_vertex h v
    rwa [← List.mapM_map] at this
  have e3 : (m.faces.map faceText).mapM (parseLine N) = some (m.faces.map .face) := by
    have := mapM_some (parseLine N ∘ faceText) Line.face m.faces fun v _ => parse_face v
    rwa [← List.mapM_map] at this
  rw [e1, e2, e3]
  obtain ⟨p1, p2, p3⟩ := pick (note m) m.vertices m.faces
  have e4 : ∀ a b c : List (Line N.D), (do let x ← some a; let y ← (do let y ← some b; let z ← some c; pure (y ++ z)); pure (x ++ y)) = some (a ++ (b ++ c)) := fun _ _ _ => rfl
  rw [e4, Option.map_some, p1, p2, p3]
  congr 3
  unfold note
  by_cases hf : m.faces = []
  · rw [if_pos hf, if_pos (by rw [hf]; rfl)]
  · rw [if_neg hf, if_neg (fun h => hf (List.length_eq_zero_iff.1 h))]

/-- A mesh as its constructors make it. -/
def Made (m : Mesh N) : Prop := m = Mesh.empty N ∨ m = Mesh.whole N ∨ ∃ vs fs, m = Mesh.of N vs fs

/-- **C78**: different meshes have different files. -/
theorem C78_faithful (h : N.Ok [' ']) (m m' : Mesh N) (hm : Made m) (hm' : Made m') (e : exportObj m = exportObj m') : m = m' := by
  have r := C78_round_trip h m
  rw [e, C78_round_trip h m'] at r
  obtain ⟨r1, r23⟩ := Prod.mk.inj (Option.some.inj r)
  obtain ⟨r2, r3⟩ := Prod.mk.inj r23
  clear r r23 e
  obtain ⟨v, f, b⟩ := m
  obtain ⟨v', f', b'⟩ := m'
  dsimp only at r1 r2 r3
  subst r1 r2
  congr 1
  have made : ∀ {v f} {b : Bool}, Made (N := N) ⟨v, f, b⟩ → b = true → f' = f → f = [] := by
    intro v f b hm hb _
    rcases hm with hm | hm | ⟨vs, fs, hm⟩
    · cases hm; cases hb
    · cases hm; rfl
    · cases hm; cases hb
  by_cases hf : f' = []
  · rw [if_pos hf, if_pos hf] at r3
    cases b <;> cases b' <;> first | rfl | (exfalso; simp at r3)
  · cases b
    · cases b'
      · rfl
      · exact absurd (made hm' rfl rfl) hf
    · exact absurd (made hm rfl rfl) hf

/-- **C78**: the comment in the file says what `is_empty` and `is_entire` say. -/
theorem C78_flags (h : N.Ok [' ']) (m : Mesh N) (hm : Made m) (vs : List (N.D × N.D × N.D)) (fs : List (Nat × Nat × Nat)) (ts : List (List Char))
    (hr : readObj N (exportObj m) = some (vs, fs, ts)) :
    (m.isEmpty = true ↔ ts = ["# empty".toList]) ∧ (m.isEntire = true ↔ ts = ["# entire".toList]) ∧ (m.isEmpty = false ∧ m.isEntire = false ↔ ts = []) := by
  rw [C78_round_trip h] at hr
  obtain ⟨-, r2⟩ := Prod.mk.inj (Option.some.inj hr)
  obtain ⟨-, rfl⟩ := Prod.mk.inj r2
  rcases hm with rfl | rfl | ⟨vs, fs, rfl⟩
  · refine ⟨?_, ?_, ?_⟩ <;> simp [Mesh.isEmpty, Mesh.isEntire, Mesh.empty]
  · refine ⟨?_, ?_, ?_⟩ <;> simp [Mesh.isEmpty, Mesh.isEntire, Mesh.whole]
  · cases fs with
    | nil => refine ⟨?_, ?_, ?_⟩ <;> simp [Mesh.isEmpty, Mesh.isEntire, Mesh.of]
    | cons f fs => refine ⟨?_, ?_, ?_⟩ <;> simp [Mesh.isEmpty, Mesh.isEntire, Mesh.of]

/-! ## An instance -/

/-- numbers printed as digits -/
def exNum : Num := ⟨Nat, decimal, fun s => (number s).getD 0⟩

theorem exNum_ok : exNum.Ok [' '] where
  round x := congrArg (Option.getD · 0) (number_decimal x)
  clean x c hc := by
    have hd := decimal_digits x c hc
    refine ⟨?_, (digit_clean hd).1, ?_⟩
    · unfold isSpace
      simp only [Bool.or_eq_false_iff, decide_eq_false_iff_not]
      refine ⟨⟨⟨⟨⟨?_, ?_⟩, ?_⟩, ?_⟩, ?_⟩, ?_⟩ <;> (rintro rfl; revert hd; decide)
    · rintro rfl; revert hd; decide
  ne x := Nat.toDigits_ne_nil

/-- a mesh -/
def exMesh : Mesh exNum := Mesh.of exNum ([(0, 10, 2), (3, 0, 0), (0, 0, 7)] : List (Nat × Nat × Nat)) [(0, 1, 2)]

example : exportObj exMesh = "v 0 10 2\nv 3 0 0\nv 0 0 7\nf 1 2 3\n".toList := by decide +kernel

example : exportObj (Mesh.whole exNum) = "# entire\n".toList := by decide +kernel

example : Made exMesh ∧ Made (Mesh.whole exNum) := ⟨.inr (.inr ⟨_, _, rfl⟩), .inr (.inl rfl)⟩

end Verif.Obj
