import Verif.Lemmas.Isosurface

/-!
# The lattice is filled from the values of the field in the box
-/

namespace Verif.Iso

set_option linter.unusedSectionVars false

open Verif Verif.Lattice Verif.PrimLattice.Prim

variable {K : Type} [Field K] [LinearOrder K]

/-- Two fields that cannot be told apart at the lattice points of the box. -/
structure Agree (inBox : LC → Bool) (F F' : Fld K) : Prop where
  val : ∀ lc, inBox lc = true → F.val lc = F'.val lc
  fails : ∀ b, (∀ lc ∈ b, inBox lc = true) → F.fails b = F'.fails b

/-- All that the lattice refers to is in the box. -/
structure InB (inBox : LC → Bool) (l : Lat) : Prop where
  nodes : ∀ lc ∈ keys l.nodes, inBox lc = true
  pending : ∀ lc ∈ l.toEval, inBox lc = true
  verts : ∀ v ∈ l.verts, inBox v.1 = true ∧ inBox (neighbor v.1 v.2) = true

variable {inBox : LC → Bool} {F F' : Fld K}

theorem Agree.neg (h : Agree inBox F F') {lc : LC} (hb : inBox lc = true) : F.neg lc = F'.neg lc := by
  unfold Fld.neg; rw [h.val lc hb]

theorem Agree.near (h : Agree inBox F F') {a b : LC} (ha : inBox a = true) (hb : inBox b = true) : F.near a b = F'.near a b := by
  unfold Fld.near; rw [h.val a ha, h.val b hb]

theorem foldl_congr {f g : β → α → β} : ∀ (xs : List α) (s : β), (∀ x ∈ xs, ∀ s, f s x = g s x) → xs.foldl f s = xs.foldl g s
  | [], _, _ => rfl
  | x :: xs, s, h => by
    rw [List.foldl_cons, List.foldl_cons, h x List.mem_cons_self s]
    exact foldl_congr xs _ fun y hy => h y (List.mem_cons_of_mem _ hy)

theorem keys_foldl_upd (f : LC → Node → Node) : ∀ (xs : List LC) (nl : NodeList), keys (xs.foldl (fun nl lc => nl.upd lc (f lc)) nl) = keys nl
  | [], _ => rfl
  | x :: xs, nl => by rw [List.foldl_cons, keys_foldl_upd f xs, keys_upd]

/-! ## Evaluating -/

theorem latEvaluate_congr (h : Agree inBox F F') {l : Lat} (hl : InB inBox l) : l.evaluateField F.neg = l.evaluateField F'.neg := by
  unfold Lat.evaluateField
  have : l.toEval.foldl (fun nl lc => nl.upd lc (fun n => { n with neg := some (F.neg lc) })) l.nodes =
      l.toEval.foldl (fun nl lc => nl.upd lc (fun n => { n with neg := some (F'.neg lc) })) l.nodes :=
    foldl_congr _ _ fun lc hlc s => by rw [h.neg (hl.pending lc hlc)]
  rw [this]

theorem latEvaluate_inB {σ : LC → Bool} {l l' : Lat} (hl : InB inBox l) (e : l.evaluateField σ = .ok l') : InB inBox l' := by
  unfold Lat.evaluateField at e
  split at e
  · obtain rfl := Outcome.ok.inj e
    refine ⟨?_, by simp, hl.verts⟩
    intro lc hlc
    refine hl.nodes lc ?_
    rw [keys_foldl_upd (fun lc n => { n with neg := some (σ lc) })] at hlc
    exact hlc
  · cases e

theorem evaluate_congr (h : Agree inBox F F') {s : LatS K} (hs : InB inBox s.lat) : evaluateField F s = evaluateField F' s := by
  unfold evaluateField
  have e : ∀ a : Arb K, s.lat.toEval.foldl (fun a lc => a.tell lc (F.val lc)) a = s.lat.toEval.foldl (fun a lc => a.tell lc (F'.val lc)) a :=
    fun a => foldl_congr _ _ fun lc hlc a => by rw [h.val lc (hs.pending lc hlc)]
  rw [h.fails _ hs.pending, latEvaluate_congr h hs]
  simp only [e]

theorem evaluate_inB {s s' : LatS K} (hs : InB inBox s.lat) (e : evaluateField F s = .done () s') : InB inBox s'.lat := by
  unfold evaluateField at e
  split at e
  · obtain rfl := (Run.done.inj e).2; exact hs
  · split at e
    · cases e
    · split at e
      · rename_i ha hl
        obtain rfl := (Run.done.inj e).2
        exact latEvaluate_inB hs hl
      · cases e

/-! ## Vertices -/

theorem at_mem {nl : NodeList} {lc : LC} {n : Node} (e : nl.at lc = .ok n) : lc ∈ keys nl := by
  unfold NodeList.at at e
  split at e
  · rename_i h; exact ptr_some_mem h
  · cases e

theorem addCrossing_congr (h : Agree inBox F F') {l : Lat} (hl : InB inBox l) (c : Crossing) : l.addCrossing F.near c = l.addCrossing F'.near c := by
  unfold Lat.addCrossing
  cases e0 : l.nodes.at c.lc0 with
  | throws _ => rfl
  | ub => rfl
  | ok n0 =>
    cases e1 : l.nodes.at c.lc1 with
    | throws _ => rfl
    | ub => rfl
    | ok n1 => rw [h.near (hl.nodes _ (at_mem e0)) (hl.nodes _ (at_mem e1))]

theorem addCrossing_inB {near : LC → LC → Bool} {l l' : Lat} {c : Crossing} (hc : c.e < 14 ∧ c.lc1 = neighbor c.lc0 c.e) (hl : InB inBox l) (e : l.addCrossing near c = .ok l') :
    InB inBox l' := by
  unfold Lat.addCrossing at e
  obtain ⟨_, e0, e⟩ := Outcome.bind_eq_ok.1 e
  obtain ⟨_, e1, e⟩ := Outcome.bind_eq_ok.1 e
  obtain rfl := Outcome.ok.inj e
  have b0 := hl.nodes _ (at_mem e0)
  have b1 := hl.nodes _ (at_mem e1)
  by_cases hn : near c.lc0 c.lc1 = true
  · simp only [hn, if_true]
    refine ⟨?_, hl.pending, ?_⟩
    · intro lc hlc
      rw [keys_upd, keys_upd, keys_upd] at hlc
      exact hl.nodes lc hlc
    · intro v hv
      rcases List.mem_append.1 hv with hv | hv
      · exact hl.verts v hv
      · obtain rfl := List.mem_singleton.1 hv
        exact ⟨b0, by rw [← hc.2]; exact b1⟩
  · simp only [hn, Bool.false_eq_true, if_false]
    refine ⟨?_, hl.pending, ?_⟩
    · intro lc hlc
      rw [keys_upd, keys_upd, keys_upd] at hlc
      exact hl.nodes lc hlc
    · intro v hv
      rcases List.mem_append.1 hv with hv | hv
      · exact hl.verts v hv
      · obtain rfl := List.mem_singleton.1 hv
        refine ⟨b1, ?_⟩
        show inBox (neighbor c.lc1 (oppositeEdge c.e)) = true
        rw [hc.2, neighbor_opp hc.1]
        exact b0

theorem foldO_congr {f g : Lat → α → Outcome Lat} {P : α → Prop} (hfg : ∀ l a, InB inBox l → P a → f l a = g l a) (hi : ∀ l l' a, InB inBox l → P a → g l a = .ok l' → InB inBox l') :
    ∀ (xs : List α) (l : Lat), InB inBox l → (∀ x ∈ xs, P x) → foldO f l xs = foldO g l xs ∧ ∀ l', foldO g l xs = .ok l' → InB inBox l'
  | [], l, hl, _ => ⟨rfl, fun l' e => by obtain rfl := Outcome.ok.inj e; exact hl⟩
  | x :: xs, l, hl, hx => by
    unfold foldO
    rw [hfg l x hl (hx x List.mem_cons_self)]
    cases e : g l x with
    | throws _ => exact ⟨rfl, fun l' e => nomatch e⟩
    | ub => exact ⟨rfl, fun l' e => nomatch e⟩
    | ok l1 => exact foldO_congr hfg hi xs l1 (hi l l1 x hl (hx x List.mem_cons_self) e) fun y hy => hx y (List.mem_cons_of_mem _ hy)

theorem mapO_mem {f : α → Outcome β} : ∀ (xs : List α) (ys : List β), mapO f xs = .ok ys → ∀ y ∈ ys, ∃ x ∈ xs, f x = .ok y
  | [], ys, e, y, hy => by unfold mapO at e; obtain rfl := Outcome.ok.inj e; cases hy
  | x :: xs, ys, e, y, hy => by
    unfold mapO at e
    obtain ⟨z, ez, e⟩ := Outcome.bind_eq_ok.1 e
    obtain ⟨zs, ezs, e⟩ := Outcome.bind_eq_ok.1 e
    obtain rfl := Outcome.ok.inj e
    rcases List.mem_cons.1 hy with rfl | hy
    · exact ⟨x, List.mem_cons_self, ez⟩
    · obtain ⟨x', hx', e'⟩ := mapO_mem xs zs ezs y hy
      exact ⟨x', List.mem_cons_of_mem _ hx', e'⟩

theorem crossingsOf_good {nl : NodeList} {lc : LC} {cs : List Crossing} (e : crossingsOf nl lc = .ok cs) : ∀ c ∈ cs, c.e < 14 ∧ c.lc1 = neighbor c.lc0 c.e := by
  unfold crossingsOf at e
  obtain ⟨n0, -, e⟩ := Outcome.bind_eq_ok.1 e
  obtain ⟨s0, -, e⟩ := Outcome.bind_eq_ok.1 e
  obtain ⟨css, ecs, e⟩ := Outcome.bind_eq_ok.1 e
  obtain rfl := Outcome.ok.inj e
  intro c hc
  obtain ⟨l, hl, hc⟩ := List.mem_flatten.1 hc
  obtain ⟨i, hi, el⟩ := mapO_mem _ _ ecs l hl
  have hi' := List.mem_range.1 hi
  dsimp only at el
  split at el
  · obtain rfl := Outcome.ok.inj el; cases hc
  · split at el
    · obtain rfl := Outcome.ok.inj el; cases hc
    · obtain ⟨s1, -, el⟩ := Outcome.bind_eq_ok.1 el
      split at el
      · obtain rfl := Outcome.ok.inj el; cases hc
      · obtain rfl := Outcome.ok.inj el
        obtain rfl := List.mem_singleton.1 hc
        exact ⟨hi', rfl⟩

theorem generate_congr (h : Agree inBox F F') {l : Lat} (hl : InB inBox l) (lcs : List LC) :
    l.generateVertices F.near lcs = l.generateVertices F'.near lcs ∧ ∀ l', l.generateVertices F'.near lcs = .ok l' → InB inBox l' := by
  unfold Lat.generateVertices
  cases e : mapO (crossingsOf l.nodes) lcs with
  | throws _ => exact ⟨rfl, fun l' e => nomatch e⟩
  | ub => exact ⟨rfl, fun l' e => nomatch e⟩
  | ok all =>
    have hall : ∀ cs ∈ all, ∀ c ∈ cs, c.e < 14 ∧ c.lc1 = neighbor c.lc0 c.e := fun cs hcs => by
      obtain ⟨x, -, ex⟩ := mapO_mem _ _ e cs hcs
      exact crossingsOf_good ex
    have inner : ∀ (l : Lat) (cs : List Crossing), InB inBox l → (∀ c ∈ cs, c.e < 14 ∧ c.lc1 = neighbor c.lc0 c.e) →
        foldO (Lat.addCrossing F.near) l cs = foldO (Lat.addCrossing F'.near) l cs ∧ ∀ l', foldO (Lat.addCrossing F'.near) l cs = .ok l' → InB inBox l' :=
      fun l cs hl hcs => foldO_congr (P := fun c => c.e < 14 ∧ c.lc1 = neighbor c.lc0 c.e) (fun l c hl _ => addCrossing_congr h hl c)
        (fun l l' c hl hc e => addCrossing_inB hc hl e) cs l hl hcs
    exact foldO_congr (P := fun cs => ∀ c ∈ cs, c.e < 14 ∧ c.lc1 = neighbor c.lc0 c.e) (fun l cs hl hcs => (inner l cs hl hcs).1)
      (fun l l' cs hl hcs e => (inner l cs hl hcs).2 l' e) all l hl hall

theorem remove_inB {l l' : Lat} (hl : InB inBox l) {lcs : List LC} (e : l.removeFreeNodes lcs = .ok l') : InB inBox l' := by
  unfold Lat.removeFreeNodes at e
  refine (foldO_congr (P := fun _ => True) (fun _ _ _ _ => rfl) ?_ lcs l hl (fun _ _ => trivial)).2 l' e
  intro l l' lc hl _ e
  split at e
  · cases e
  · obtain rfl := Outcome.ok.inj e
    split
    · refine ⟨?_, hl.pending, hl.verts⟩
      intro x hx
      rw [keys_erase] at hx
      exact hl.nodes x (List.mem_filter.1 hx).1
    · exact hl

/-! ## Adding nodes -/

theorem addUnchecked_inB {l : Lat} (hl : InB inBox l) (lc : LC) : InB inBox (l.addNodeUnchecked inBox lc).1 := by
  unfold Lat.addNodeUnchecked
  split
  · exact hl
  · rename_i hb
    have hb' : inBox lc = true := by simpa using hb
    refine ⟨?_, ?_, hl.verts⟩
    · intro x hx
      dsimp only at hx
      rw [keys_emplace] at hx
      split at hx
      · exact hl.nodes x hx
      · rcases List.mem_append.1 hx with hx | hx
        · exact hl.nodes x hx
        · rw [List.mem_singleton.1 hx]; exact hb'
    · intro x hx
      rcases List.mem_append.1 hx with hx | hx
      · exact hl.pending x hx
      · rw [List.mem_singleton.1 hx]; exact hb'

theorem addNode_inB {l : Lat} (hl : InB inBox l) (lc : LC) : InB inBox (l.addNode inBox lc).1 := by
  unfold Lat.addNode
  split
  · exact hl
  · exact addUnchecked_inB hl lc

theorem addNodes_inB : ∀ (lcs : List LC) {l : Lat}, InB inBox l → InB inBox (l.addNodes inBox lcs).1
  | [], _, hl => hl
  | lc :: lcs, _, hl => addNodes_inB lcs (addNode_inB hl lc)

theorem addLayer_inB {l : Lat} (hl : InB inBox l) (layer : List LC) : InB inBox (l.addLayer inBox layer).1 := by
  unfold Lat.addLayer
  have : ∀ (xs : List LC) (p : Lat × List LC), InB inBox p.1 → InB inBox (xs.foldl (fun (p : Lat × List LC) lc =>
      let (l', added) := p.1.addNodeUnchecked inBox lc
      (l', if added then p.2 ++ [lc] else p.2)) p).1 := by
    intro xs
    induction xs with
    | nil => intro p hp; exact hp
    | cons x xs ih => intro p hp; exact ih _ (addUnchecked_inB hp x)
  exact this layer (l, []) hl

/-! ## The runs -/

theorem bind_congr {x : Run S α} {f g : α → S → Run S β} (h : ∀ a s, x = .done a s → f a s = g a s) : x.bind f = x.bind g := by
  cases x with
  | done a s => exact h a s rfl
  | threw s => rfl
  | undef => rfl

theorem lift_inB {s s' : LatS K} {r : Outcome Lat} (h : ∀ l', r = .ok l' → InB inBox l') (e : lift s r = .done () s') : InB inBox s'.lat := by
  unfold lift at e
  split at e
  · obtain rfl := (Run.done.inj e).2
    exact h _ rfl
  · cases e

theorem layers_congr (h : Agree inBox F F') : ∀ (ls : List (List LC)) (s : LatS K) (prev : List LC), InB inBox s.lat →
    layers inBox F s prev ls = layers inBox F' s prev ls ∧ ∀ s', layers inBox F' s prev ls = .done () s' → InB inBox s'.lat
  | [], s, prev, hs => ⟨rfl, fun s' e => by obtain rfl := (Run.done.inj e).2; exact hs⟩
  | layer :: rest, s, prev, hs => by
    unfold layers
    have h1 : InB inBox (s.lat.addLayer inBox layer).1 := addLayer_inB hs layer
    obtain ⟨l1, new, hl1⟩ : ∃ l1 new, s.lat.addLayer inBox layer = (l1, new) := ⟨_, _, rfl⟩
    rw [hl1] at h1 ⊢
    dsimp only at h1 ⊢
    have e1 : evaluateField F { s with lat := l1 } = evaluateField F' { s with lat := l1 } := evaluate_congr h (s := { s with lat := l1 }) h1
    constructor
    · rw [e1]
      refine bind_congr fun _ s2 e2 => ?_
      have h2 := evaluate_inB (s := { s with lat := l1 }) h1 e2
      obtain ⟨g1, g2⟩ := generate_congr h h2 new
      rw [g1]
      refine bind_congr fun _ s3 e3 => ?_
      have h3 := lift_inB g2 e3
      refine bind_congr fun _ s4 e4 => ?_
      have h4 := lift_inB (fun l' e => remove_inB h3 e) e4
      refine bind_congr fun _ s5 e5 => ?_
      have h5 : InB inBox s5.lat := by
        split at e5
        · exact lift_inB (fun l' e => remove_inB h4 e) e5
        · obtain rfl := (Run.done.inj e5).2; exact h4
      exact (layers_congr h rest s5 new h5).1
    · intro s' e
      obtain ⟨_, s2, e2, e⟩ := bind_done e
      have h2 := evaluate_inB (s := { s with lat := l1 }) h1 e2
      obtain ⟨_, s3, e3, e⟩ := bind_done e
      have h3 := lift_inB (generate_congr h h2 new).2 e3
      obtain ⟨_, s4, e4, e⟩ := bind_done e
      have h4 := lift_inB (fun l' e => remove_inB h3 e) e4
      obtain ⟨_, s5, e5, e⟩ := bind_done e
      have h5 : InB inBox s5.lat := by
        split at e5
        · exact lift_inB (fun l' e => remove_inB h4 e) e5
        · obtain rfl := (Run.done.inj e5).2; exact h4
      exact (layers_congr h rest s5 new h5).2 s' e

theorem batches_congr (h : Agree inBox F F') : ∀ (bs : List (List LC)) (s : LatS K), InB inBox s.lat →
    addBatches inBox F s bs = addBatches inBox F' s bs ∧ ∀ s', addBatches inBox F' s bs = .done () s' → InB inBox s'.lat
  | [], s, hs => ⟨rfl, fun s' e => by obtain rfl := (Run.done.inj e).2; exact hs⟩
  | b :: bs, s, hs => by
    unfold addBatches
    have h1 : InB inBox (s.lat.addNodes inBox b).1 := addNodes_inB b hs
    constructor
    · rw [evaluate_congr h (s := { s with lat := (s.lat.addNodes inBox b).1 }) h1]
      refine bind_congr fun _ s2 e2 => ?_
      exact (batches_congr h bs s2 (evaluate_inB (s := { s with lat := (s.lat.addNodes inBox b).1 }) h1 e2)).1
    · intro s' e
      obtain ⟨_, s2, e2, e⟩ := bind_done e
      exact (batches_congr h bs s2 (evaluate_inB (s := { s with lat := (s.lat.addNodes inBox b).1 }) h1 e2)).2 s' e

theorem complete_congr (h : Agree inBox F F') : ∀ (fuel : Nat) (s : LatS K) (fr : List LC), InB inBox s.lat →
    completeLoop inBox F fuel s fr = completeLoop inBox F' fuel s fr ∧ ∀ s', completeLoop inBox F' fuel s fr = .done () s' → InB inBox s'.lat
  | fuel, s, [], hs => by
    cases fuel <;> exact ⟨rfl, fun s' e => by unfold completeLoop at e; obtain rfl := (Run.done.inj e).2; exact hs⟩
  | 0, s, _ :: _, _ => ⟨rfl, fun s' e => nomatch e⟩
  | fuel + 1, s, f :: fr, hs => by
    unfold completeLoop
    have h1 : InB inBox (s.lat.addNodes inBox (allNeighbors (f :: fr))).1 := addNodes_inB _ hs
    obtain ⟨l1, new, hl1⟩ : ∃ l1 new, s.lat.addNodes inBox (allNeighbors (f :: fr)) = (l1, new) := ⟨_, _, rfl⟩
    rw [hl1] at h1 ⊢
    dsimp only at h1 ⊢
    constructor
    · rw [evaluate_congr h (s := { s with lat := l1 }) h1]
      refine bind_congr fun _ s2 e2 => ?_
      have h2 := evaluate_inB (s := { s with lat := l1 }) h1 e2
      cases e3 : surfaceNodes s2.lat.nodes new with
      | throws _ => rfl
      | ub => rfl
      | ok fr' => exact (complete_congr h fuel s2 fr' h2).1
    · intro s' e
      obtain ⟨_, s2, e2, e⟩ := bind_done e
      have h2 := evaluate_inB (s := { s with lat := l1 }) h1 e2
      cases e3 : surfaceNodes s2.lat.nodes new with
      | throws _ => rw [e3] at e; cases e
      | ub => rw [e3] at e; cases e
      | ok fr' => rw [e3] at e; exact (complete_congr h fuel s2 fr' h2).2 s' e

theorem all_congr (h : Agree inBox F F') (ls : List (List LC)) (center : Rows LC × Rows K) (s : LatS K) (hs : InB inBox s.lat) :
    addAllNodes inBox ls center F s = addAllNodes inBox ls center F' s ∧ ∀ s', addAllNodes inBox ls center F' s = .done () s' → InB inBox s'.lat :=
  layers_congr h ls _ _ hs

theorem seeds_congr (h : Agree inBox F F') (ord : List LC → List LC) (fuel : Nat) (bs : List (List LC)) (first : Rows LC × Rows K) (s : LatS K) (hs : InB inBox s.lat) :
    addFromSeeds inBox ord fuel bs first F s = addFromSeeds inBox ord fuel bs first F' s ∧
      ∀ s', addFromSeeds inBox ord fuel bs first F' s = .done () s' → InB inBox s'.lat := by
  unfold addFromSeeds
  obtain ⟨b1, b2⟩ := batches_congr h bs { s with arb := some (Arb.new first.1 first.2) } hs
  constructor
  · rw [b1]
    refine bind_congr fun _ s2 e2 => ?_
    have h2 := b2 s2 e2
    cases e3 : surfaceNodes s2.lat.nodes (ord (s2.lat.nodes.map Prod.fst)) with
    | throws _ => rfl
    | ub => rfl
    | ok fr =>
      obtain ⟨c1, c2⟩ := complete_congr h fuel s2 fr h2
      dsimp only
      rw [c1]
      refine bind_congr fun _ s3 e3 => ?_
      rw [(generate_congr h (c2 s3 e3) _).1]
  · intro s' e
    obtain ⟨_, s2, e2, e⟩ := bind_done e
    have h2 := b2 s2 e2
    cases e3 : surfaceNodes s2.lat.nodes (ord (s2.lat.nodes.map Prod.fst)) with
    | throws _ => rw [e3] at e; cases e
    | ub => rw [e3] at e; cases e
    | ok fr =>
      rw [e3] at e
      dsimp only at e
      obtain ⟨_, s3, e3, e⟩ := bind_done e
      have h3 := (complete_congr h fuel s2 fr h2).2 s3 e3
      obtain ⟨_, s4, e4, e⟩ := bind_done e
      have h4 := lift_inB (generate_congr h h3 _).2 e4
      exact lift_inB (fun l' e => remove_inB h4 e) e

theorem fresh_inB : InB inBox (LatS.fresh : LatS K).lat := ⟨by simp [LatS.fresh, keys], by simp [LatS.fresh], by simp [LatS.fresh]⟩

/-! ## A field that never throws, instead of one that happened not to -/

/-- The same values, without exceptions. -/
def Fld.calm (F : Fld K) : Fld K := ⟨F.val, fun _ => false⟩

theorem calm_evaluate {s s' : LatS K} (e : evaluateField F s = .done () s') : evaluateField F.calm s = .done () s' := by
  unfold evaluateField at e ⊢
  split at e
  · rename_i h; rw [if_pos h]; exact e
  · rename_i h
    rw [if_neg h]
    split at e
    · cases e
    · rw [if_neg (by simp [Fld.calm])]
      exact e

theorem calm_layers : ∀ (ls : List (List LC)) (s s' : LatS K) (prev : List LC), layers inBox F s prev ls = .done () s' → layers inBox F.calm s prev ls = .done () s'
  | [], _, _, _, e => e
  | layer :: rest, s, s', prev, e => by
    unfold layers at e ⊢
    obtain ⟨l1, new, hl1⟩ : ∃ l1 new, s.lat.addLayer inBox layer = (l1, new) := ⟨_, _, rfl⟩
    rw [hl1] at e ⊢
    dsimp only at e ⊢
    obtain ⟨_, s2, e2, e⟩ := bind_done e
    rw [calm_evaluate e2]
    obtain ⟨_, s3, e3, e⟩ := bind_done e
    obtain ⟨_, s4, e4, e⟩ := bind_done e
    obtain ⟨_, s5, e5, e⟩ := bind_done e
    simp only [Run.bind]
    have e3' : lift s2 (s2.lat.generateVertices F.calm.near new) = .done () s3 := e3
    rw [e3']
    dsimp only
    rw [e4]
    dsimp only
    rw [e5]
    exact calm_layers rest s5 s' new e

theorem calm_batches : ∀ (bs : List (List LC)) (s s' : LatS K), addBatches inBox F s bs = .done () s' → addBatches inBox F.calm s bs = .done () s'
  | [], _, _, e => e
  | b :: bs, s, s', e => by
    unfold addBatches at e ⊢
    obtain ⟨_, s2, e2, e⟩ := bind_done e
    rw [calm_evaluate e2]
    exact calm_batches bs s2 s' e

theorem calm_complete : ∀ (fuel : Nat) (s s' : LatS K) (fr : List LC), completeLoop inBox F fuel s fr = .done () s' → completeLoop inBox F.calm fuel s fr = .done () s'
  | fuel, s, s', [], e => by cases fuel <;> exact e
  | 0, s, s', _ :: _, e => nomatch e
  | fuel + 1, s, s', f :: fr, e => by
    unfold completeLoop at e ⊢
    obtain ⟨l1, new, hl1⟩ : ∃ l1 new, s.lat.addNodes inBox (allNeighbors (f :: fr)) = (l1, new) := ⟨_, _, rfl⟩
    rw [hl1] at e ⊢
    dsimp only at e ⊢
    obtain ⟨_, s2, e2, e⟩ := bind_done e
    rw [calm_evaluate e2]
    cases e3 : surfaceNodes s2.lat.nodes new with
    | throws _ => rw [e3] at e; cases e
    | ub => rw [e3] at e; cases e
    | ok fr' =>
      rw [e3] at e
      simp only [Run.bind, e3]
      exact calm_complete fuel s2 s' fr' e

theorem calm_seeds {ord : List LC → List LC} {fuel : Nat} {bs : List (List LC)} {first : Rows LC × Rows K} {s s' : LatS K}
    (e : addFromSeeds inBox ord fuel bs first F s = .done () s') : addFromSeeds inBox ord fuel bs first F.calm s = .done () s' := by
  unfold addFromSeeds at e ⊢
  obtain ⟨_, s2, e2, e⟩ := bind_done e
  rw [calm_batches bs _ _ e2]
  cases e3 : surfaceNodes s2.lat.nodes (ord (s2.lat.nodes.map Prod.fst)) with
  | throws _ => rw [e3] at e; cases e
  | ub => rw [e3] at e; cases e
  | ok fr =>
    rw [e3] at e
    dsimp only at e
    obtain ⟨_, s3, e4, e⟩ := bind_done e
    simp only [Run.bind, e3]
    rw [calm_complete fuel s2 s3 fr e4]
    exact e

end Verif.Iso
