import Verif.Spec.Main
import Verif.Props.Cli

/-! # C92: polatory, the program -/

namespace Verif.Main

open Verif

variable {α : Type}

/-! ## Dispatch -/

/-- **C92**, dispatch: every command is reached by its own name and by no other, with the arguments after the name; any other name is an error. -/
theorem C92_dispatch (L : Lib α) (command : String) (args : List String) (help : Bool) :
    (∀ c, (command, c) ∈ commands → dispatch L command args help = run L c args help) ∧
    ((∀ c, (command, c) ∉ commands) → dispatch L command args help = .done (.throws .runtimeError)) ∧
    (commands.map Prod.fst).Nodup ∧ ∀ c : Cmd, ∃ name, (name, c) ∈ commands ∧ ∀ name', (name', c) ∈ commands → name' = name := by
  refine ⟨fun c h => ?_, fun h => ?_, by decide, fun c => ?_⟩
  · simp only [commands, List.mem_cons, Prod.mk.injEq, List.not_mem_nil, or_false] at h
    rcases h with ⟨rfl, rfl⟩ | ⟨rfl, rfl⟩ | ⟨rfl, rfl⟩ | ⟨rfl, rfl⟩ | ⟨rfl, rfl⟩ | ⟨rfl, rfl⟩ | ⟨rfl, rfl⟩ | ⟨rfl, rfl⟩ | ⟨rfl, rfl⟩ | ⟨rfl, rfl⟩ | ⟨rfl, rfl⟩ | ⟨rfl, rfl⟩ | ⟨rfl, rfl⟩ | ⟨rfl, rfl⟩ <;>
      simp [dispatch, kName]
  · have hn : ∀ c, command ≠ kName c := by
      intro c hc
      refine h c ?_
      rw [hc]
      cases c <;> simp [commands, kName]
    simp [dispatch, hn]
  · cases c <;> simp [commands]

/-! ## Files -/

/-- reading all inputs -/
def gather : List (String × Bool) → (List (Option Bytes) → Prog) → Prog
  | [], k => k []
  | i :: l, k => if i.2 then readOpt i.1 fun b => gather l fun bs => k (b :: bs) else .read i.1 fun b => gather l fun bs => k (some b :: bs)

/-- the end of a command -/
def endProg (out : Option String) (r : Outcome Bytes) : Prog :=
  match out with
  | none => show_ r
  | some out => finish r out

theorem runImpl_eq (L : Lib α) (c : Cmd) (o : Opts α) : runImpl L c o = gather (inputs c o.files) fun bs => endProg (output c o.files) (L.compute c o bs) := by
  cases c
  case fitModelToVariogram =>
    simp only [runImpl, inputs, output, gather, if_true, Bool.false_eq_true, if_false]
    congr 1
    funext a
    congr 1
    funext b
    split <;> rfl
  all_goals rfl

theorem exec_gather {E : Env} {fs : Fs} : ∀ (l : List (String × Bool)) (k : List (Option Bytes) → Prog),
    (∃ bs, HasInputs E fs l bs ∧ exec E (gather l k) fs = exec E (k bs) fs) ∨ ((∀ bs, ¬ HasInputs E fs l bs) ∧ exec E (gather l k) fs = ([], fs, .throws .runtimeError))
  | [], k => Or.inl ⟨[], .nil, rfl⟩
  | i :: l, k => by
      obtain ⟨name, opt⟩ := i
      by_cases ho : opt = true ∧ name = ""
      · obtain ⟨rfl, rfl⟩ := ho
        have e : gather (("", true) :: l) k = gather l fun bs => k (none :: bs) := by simp [gather, readOpt]
        rw [e]
        rcases exec_gather l (fun bs => k (none :: bs)) with ⟨bs, h1, h2⟩ | ⟨h1, h2⟩
        · exact Or.inl ⟨none :: bs, .cons (Or.inl ⟨rfl, rfl, rfl⟩) h1, h2⟩
        · refine Or.inr ⟨fun bs h => ?_, h2⟩
          cases h with
          | cons _ h => exact h1 _ h
      · have e : gather ((name, opt) :: l) k = .read name fun b => gather l fun bs => k (some b :: bs) := by
          cases opt with
          | false => simp [gather]
          | true =>
              have hn : name ≠ "" := fun h => ho ⟨rfl, h⟩
              simp [gather, readOpt, hn]
        rw [e]
        by_cases hr : E.canRead name = true ∧ (fs name).isSome
        · obtain ⟨h1, h2⟩ := hr
          obtain ⟨b, hb⟩ := Option.isSome_iff_exists.1 h2
          have e2 : exec E (.read name fun b => gather l fun bs => k (some b :: bs)) fs = exec E (gather l fun bs => k (some b :: bs)) fs := by
            simp only [exec, h1, hb]
          rw [e2]
          rcases exec_gather l (fun bs => k (some b :: bs)) with ⟨bs, h3, h4⟩ | ⟨h3, h4⟩
          · exact Or.inl ⟨some b :: bs, .cons (Or.inr ⟨ho, h1, rfl, hb⟩) h3, h4⟩
          · refine Or.inr ⟨fun bs h => ?_, h4⟩
            cases h with
            | cons _ h => exact h3 _ h
        · refine Or.inr ⟨fun bs h => ?_, ?_⟩
          · cases h with
            | cons h _ =>
                rcases h with ⟨h1, h2, -⟩ | ⟨-, h1, h2, h3⟩
                · exact ho ⟨h1, h2⟩
                · exact hr ⟨h1, by rw [h3]; exact h2⟩
          · cases hc : E.canRead name with
            | false => simp [exec, hc]
            | true =>
                cases hf : fs name with
                | none => simp [exec, hc, hf]
                | some b => exact absurd ⟨hc, by rw [hf]; rfl⟩ hr

/-- inputs have only one content -/
theorem hasInputs_unique {E : Env} {fs : Fs} : ∀ {l : List (String × Bool)} {a b : List (Option Bytes)}, HasInputs E fs l a → HasInputs E fs l b → a = b
  | _, _, _, .nil, .nil => rfl
  | _, _, _, .cons h1 t1, .cons h2 t2 => by
      rw [hasInputs_unique t1 t2]
      congr 1
      rcases h1 with ⟨p, q, r⟩ | ⟨p, -, -, r⟩ <;> rcases h2 with ⟨p', q', r'⟩ | ⟨p', -, -, r'⟩
      · rw [r, r']
      · exact absurd ⟨p, q⟩ p'
      · exact absurd ⟨p', q'⟩ p
      · rw [← r, ← r']

theorem exec_end_throws {E : Env} {fs : Fs} (out : Option String) (e : Err) : exec E (endProg out (.throws e)) fs = ([], fs, .throws e) := by
  cases out <;> rfl

theorem exec_end_ub {E : Env} {fs : Fs} (out : Option String) : exec E (endProg out .ub) fs = ([], fs, .ub) := by
  cases out <;> rfl

theorem exec_finish {E : Env} {fs : Fs} {out : String} {b : Bytes} (h : E.canWrite out = true) : exec E (finish (.ok b) out) fs =
    ((List.range (min E.room b.length + 1)).map (fun n => Function.update fs out (some (b.take n))), Function.update fs out (some (b.take E.room)), .ok ()) := by
  simp [finish, exec, h]

theorem exec_finish_refused {E : Env} {fs : Fs} {out : String} {b : Bytes} (h : E.canWrite out = false) : exec E (finish (.ok b) out) fs = ([], fs, .throws .runtimeError) := by
  simp [finish, exec, h]

/-- the program run on a command with good options -/
theorem main_run (L : Lib α) (E : Env) {name : String} {c : Cmd} (hc : (name, c) ∈ commands) (args : List String) {o : Opts α} (hp : L.parse c args = some o) (hk : L.check c o = .ok ()) (fs : Fs) :
    main L E (some (false, name :: args)) fs = ((exec E (runImpl L c o) fs).1, (exec E (runImpl L c o) fs).2.1, exitOf (exec E (runImpl L c o) fs).2.2) := by
  have : run L c args false = runImpl L c o := by simp [run, hp, hk]
  simp only [main, (C92_dispatch L name args false).1 c hc, this]

/-- **C92**, nothing done: `--help`, no command, an unknown command, options that do not parse and options refused leave all files alone at all times.  The status is 0 for `--help` (with a known command or
none, whatever the other options) and 1 otherwise. -/
theorem C92_no_command (L : Lib α) (E : Env) (fs : Fs) :
    main L E none fs = ([], fs, .status 1) ∧ main L E (some (false, [])) fs = ([], fs, .status 1) ∧ main L E (some (true, [])) fs = ([], fs, .status 0) ∧
    (∀ help name args, (∀ c, (name, c) ∉ commands) → main L E (some (help, name :: args)) fs = ([], fs, .status 1)) ∧
    (∀ name c args, (name, c) ∈ commands → main L E (some (true, name :: args)) fs = ([], fs, .status 0)) ∧
    (∀ name c args, (name, c) ∈ commands → L.parse c args = none → main L E (some (false, name :: args)) fs = ([], fs, .status 1)) ∧
    ∀ name c args o e, (name, c) ∈ commands → L.parse c args = some o → L.check c o = .throws e → main L E (some (false, name :: args)) fs = ([], fs, .status 1) := by
  refine ⟨rfl, rfl, rfl, fun help name args h => ?_, fun name c args h => ?_, fun name c args h hp => ?_, fun name c args o e h hp hk => ?_⟩
  · simp only [main, (C92_dispatch L name args help).2.1 h]; rfl
  · simp only [main, (C92_dispatch L name args true).1 c h]; rfl
  · simp only [main, (C92_dispatch L name args false).1 c h, run, hp]; rfl
  · simp only [main, (C92_dispatch L name args false).1 c h, run, hp, hk]; rfl

/-- **C92**, success: with its inputs readable, a result and a file that can be written, a command ends with status 0, and if there is room that file has the whole result, even if it is one of the
inputs.  No other file changes. -/
theorem C92_success (L : Lib α) (E : Env) {name : String} {c : Cmd} (hc : (name, c) ∈ commands) (args : List String) {o : Opts α} (hp : L.parse c args = some o) (hk : L.check c o = .ok ()) (fs : Fs)
    {bs : List (Option Bytes)} (hi : HasInputs E fs (inputs c o.files) bs) {b : Bytes} (hb : L.compute c o bs = .ok b) {out : String} (ho : output c o.files = some out) (hw : E.canWrite out = true)
    (hr : b.length ≤ E.room) :
    (main L E (some (false, name :: args)) fs).2.2 = .status 0 ∧ (main L E (some (false, name :: args)) fs).2.1 out = some b ∧
      ∀ f ≠ out, (main L E (some (false, name :: args)) fs).2.1 f = fs f := by
  rw [main_run L E hc args hp hk, runImpl_eq]
  rcases exec_gather (inputs c o.files) (fun bs => endProg (output c o.files) (L.compute c o bs)) with ⟨bs', h1, h2⟩ | ⟨h1, -⟩
  · rw [h2, hasInputs_unique h1 hi, hb, ho]
    show exitOf (exec E (finish (.ok b) out) fs).2.2 = _ ∧ (exec E (finish (.ok b) out) fs).2.1 out = _ ∧ ∀ f ≠ out, (exec E (finish (.ok b) out) fs).2.1 f = _
    rw [exec_finish hw]
    refine ⟨rfl, ?_, fun f hf => Function.update_of_ne hf _ _⟩
    show Function.update fs out _ out = _
    rw [Function.update_self, List.take_of_length_le hr]
  · exact absurd hi (h1 bs)

/-- **C92**, the status: if a command that was not asked for help ends with 0, its inputs could be read and gave a result, and that was printed or written.  If it ends with 1, no file was changed at any time. -/
theorem C92_status (L : Lib α) (E : Env) {name : String} {c : Cmd} (hc : (name, c) ∈ commands) (args : List String) (fs : Fs) :
    ((main L E (some (false, name :: args)) fs).2.2 = .status 0 → ∃ o bs b, L.parse c args = some o ∧ L.check c o = .ok () ∧ HasInputs E fs (inputs c o.files) bs ∧ L.compute c o bs = .ok b ∧
      (main L E (some (false, name :: args)) fs).2.1 = ((output c o.files).elim fs fun out => Function.update fs out (some (b.take E.room))) ∧ ∀ out ∈ output c o.files, E.canWrite out = true) ∧
    ((main L E (some (false, name :: args)) fs).2.2 = .status 1 → (main L E (some (false, name :: args)) fs).1 = [] ∧ (main L E (some (false, name :: args)) fs).2.1 = fs) ∧
    ∀ n, (main L E (some (false, name :: args)) fs).2.2 = .status n → n ≤ 1 := by
  cases hp : L.parse c args with
  | none =>
      rw [(C92_no_command L E fs).2.2.2.2.2.1 name c args hc hp]
      exact ⟨fun h => by simp at h, fun _ => ⟨rfl, rfl⟩, fun n h => by simp at h; omega⟩
  | some o =>
      cases hk : L.check c o with
      | throws e =>
          rw [(C92_no_command L E fs).2.2.2.2.2.2 name c args o e hc hp hk]
          exact ⟨fun h => by simp at h, fun _ => ⟨rfl, rfl⟩, fun n h => by simp at h; omega⟩
      | ub =>
          have : main L E (some (false, name :: args)) fs = ([], fs, .undefined) := by
            simp only [main, (C92_dispatch L name args false).1 c hc, run, hp, hk]; rfl
          rw [this]
          exact ⟨fun h => by simp at h, fun h => by simp at h, fun n h => by simp at h⟩
      | ok u =>
          rw [main_run L E hc args hp hk, runImpl_eq]
          rcases exec_gather (inputs c o.files) (fun bs => endProg (output c o.files) (L.compute c o bs)) with ⟨bs, h1, h2⟩ | ⟨h1, h2⟩
          · rw [h2]
            cases hb : L.compute c o bs with
            | throws e =>
                rw [exec_end_throws]
                exact ⟨fun h => by simp [exitOf] at h, fun _ => ⟨rfl, rfl⟩, fun n h => by simp [exitOf] at h; omega⟩
            | ub =>
                rw [exec_end_ub]
                exact ⟨fun h => by simp [exitOf] at h, fun h => by simp [exitOf] at h, fun n h => by simp [exitOf] at h⟩
            | ok b =>
                cases ho : output c o.files with
                | none =>
                    refine ⟨fun _ => ⟨o, bs, b, rfl, hk, h1, hb, ?_, ?_⟩, fun h => ?_, fun n h => ?_⟩
                    · rw [ho]; rfl
                    · rw [ho]; simp
                    · simp [endProg, show_, exec, exitOf] at h
                    · simp [endProg, show_, exec, exitOf] at h; omega
                | some out =>
                    show (exitOf (exec E (finish (.ok b) out) fs).2.2 = _ → _) ∧ _
                    cases hw : E.canWrite out with
                    | true =>
                        have ex : exec E (endProg (some out) (.ok b)) fs = _ := exec_finish hw
                        rw [ex]
                        refine ⟨fun _ => ⟨o, bs, b, rfl, hk, h1, hb, ?_, ?_⟩, fun h => ?_, fun n h => ?_⟩
                        · rw [ho]; rfl
                        · rw [ho]; simpa using hw
                        · simp [exitOf] at h
                        · simp [exitOf] at h; omega
                    | false =>
                        have ex : exec E (endProg (some out) (.ok b)) fs = _ := exec_finish_refused hw
                        rw [exec_finish_refused hw, ex]
                        exact ⟨fun h => by simp [exitOf] at h, fun _ => ⟨rfl, rfl⟩, fun n h => by simp [exitOf] at h; omega⟩
          · rw [h2]
            exact ⟨fun h => by simp [exitOf] at h, fun _ => ⟨rfl, rfl⟩, fun n h => by simp [exitOf] at h; omega⟩

/-- **C92**, crashes: if the process is stopped at any moment, no file has changed but the output of the command, and that has the first bytes of the result - a result for which the inputs have been read
completely.  So a command that fails before it has a result leaves an old output file alone. -/
theorem C92_crash (L : Lib α) (E : Env) (parsed : Option (Bool × List String)) (fs : Fs) {fs' : Fs} (h : fs' ∈ (main L E parsed fs).1) :
    ∃ name c args o bs b out n, parsed = some (false, name :: args) ∧ (name, c) ∈ commands ∧ L.parse c args = some o ∧ HasInputs E fs (inputs c o.files) bs ∧ L.compute c o bs = .ok b ∧
      output c o.files = some out ∧ fs' out = some (b.take n) ∧ ∀ f ≠ out, fs' f = fs f := by
  match parsed with
  | none => cases h
  | some (help, []) => cases h
  | some (help, name :: args) =>
      by_cases hn : ∃ c, (name, c) ∈ commands
      · obtain ⟨c, hc⟩ := hn
        cases help with
        | true => rw [(C92_no_command L E fs).2.2.2.2.1 name c args hc] at h; cases h
        | false =>
            cases hp : L.parse c args with
            | none => rw [(C92_no_command L E fs).2.2.2.2.2.1 name c args hc hp] at h; cases h
            | some o =>
                cases hk : L.check c o with
                | throws e => rw [(C92_no_command L E fs).2.2.2.2.2.2 name c args o e hc hp hk] at h; cases h
                | ub =>
                    have : main L E (some (false, name :: args)) fs = ([], fs, .undefined) := by
                      simp only [main, (C92_dispatch L name args false).1 c hc, run, hp, hk]; rfl
                    rw [this] at h; cases h
                | ok u =>
                    rw [main_run L E hc args hp hk, runImpl_eq] at h
                    rcases exec_gather (inputs c o.files) (fun bs => endProg (output c o.files) (L.compute c o bs)) with ⟨bs, h1, h2⟩ | ⟨h1, h2⟩
                    · rw [h2] at h
                      cases hb : L.compute c o bs with
                      | throws e => rw [hb, exec_end_throws] at h; cases h
                      | ub => rw [hb, exec_end_ub] at h; cases h
                      | ok b =>
                          rw [hb] at h
                          cases ho : output c o.files with
                          | none => rw [ho] at h; cases h
                          | some out =>
                              rw [ho] at h
                              cases hw : E.canWrite out with
                              | false =>
                                  have ex : exec E (endProg (some out) (.ok b)) fs = _ := exec_finish_refused hw
                                  rw [ex] at h; cases h
                              | true =>
                                  have ex : exec E (endProg (some out) (.ok b)) fs = _ := exec_finish hw
                                  rw [ex] at h
                                  obtain ⟨n, -, rfl⟩ := List.mem_map.1 h
                                  exact ⟨name, c, args, o, bs, b, out, n, rfl, hc, hp, h1, hb, ho, Function.update_self .., fun f hf => Function.update_of_ne hf _ _⟩
                    · rw [h2] at h; cases h
      · rw [(C92_no_command L E fs).2.2.2.1 help name args fun c hc => hn ⟨c, hc⟩] at h; cases h

/-- **C92**, a defect: on a full disk a command ends with status 0 although its output file is not the result but its first bytes only; the old contents are gone. -/
theorem C92_disk_full (L : Lib α) (E : Env) {name : String} {c : Cmd} (hc : (name, c) ∈ commands) (args : List String) {o : Opts α} (hp : L.parse c args = some o) (hk : L.check c o = .ok ()) (fs : Fs)
    {bs : List (Option Bytes)} (hi : HasInputs E fs (inputs c o.files) bs) {b : Bytes} (hb : L.compute c o bs = .ok b) {out : String} (ho : output c o.files = some out) (hw : E.canWrite out = true)
    (hr : E.room < b.length) :
    (main L E (some (false, name :: args)) fs).2.2 = .status 0 ∧ (main L E (some (false, name :: args)) fs).2.1 out = some (b.take E.room) ∧ b.take E.room ≠ b := by
  rw [main_run L E hc args hp hk, runImpl_eq]
  rcases exec_gather (inputs c o.files) (fun bs => endProg (output c o.files) (L.compute c o bs)) with ⟨bs', h1, h2⟩ | ⟨h1, -⟩
  · rw [h2, hasInputs_unique h1 hi, hb, ho]
    have ex : exec E (endProg (some out) (.ok b)) fs = _ := exec_finish hw
    rw [ex]
    refine ⟨rfl, Function.update_self .., fun h => ?_⟩
    have := congrArg List.length h
    rw [List.length_take] at this
    omega
  · exact absurd hi (h1 bs)

/-! ## A command of the model -/

open Verif.Cli Verif.Table in
/-- **C92** with C79: `polatory unique` with the same file for `--in` and `--out` works: there is room, so the file has the rows of the old table that are to be kept. -/
theorem C92_unique_in_place {N : Num} (hN : N.Ok delims) {dist : List N.D → List N.D → ℝ} {search : List (List N.D) → ℝ → Nat → List Nat} (hs : SearchOk dist search) (L : Lib α) (E : Env) (args : List String)
    {o : Opts α} {f : String} (hp : L.parse .unique args = some o) (hk : L.check .unique o = .ok ()) (hin : o.files.input = f) (hout : o.files.out = f) {dim : Nat} (hd : dim = 1 ∨ dim = 2 ∨ dim = 3)
    {d : ℝ} (hm : DistanceFilter.kMinDistance ≤ d) (hL : ∀ b, L.compute .unique o [some b] = Cli.unique N search dim (some d) b)
    {fs : Fs} {b : Bytes} (hf : fs f = some b) (h1 : E.canRead f = true) (h2 : E.canWrite f = true) {rows : List (List N.D)} {n : Nat} (hh : Holds N b rows n) (hr : rows ≠ []) (hn : dim ≤ n)
    (hroom : ∀ out, Cli.unique N search dim (some d) b = .ok out → out.length ≤ E.room) :
    ∃ (out : Bytes) (kept : List Nat), main L E (some (false, "unique" :: args)) fs = ((main L E (some (false, "unique" :: args)) fs).1, Function.update fs f (some out), .status 0) ∧
      Holds N out (kept.map fun i => rows.getD i []) n ∧ kept.Sublist (List.range rows.length) ∧ 0 ∈ kept := by
  obtain ⟨out, kept, k1, k2, k3, k4, -⟩ := C79_unique hN hs hh hr hd hn d hm
  have hi : HasInputs E fs (inputs .unique o.files) [some b] := .cons (Or.inr ⟨by simp, by rw [hin]; exact h1, rfl, by rw [hin]; exact hf⟩) .nil
  obtain ⟨a1, a2, a3⟩ := C92_success L E (name := "unique") (c := .unique) (by simp [commands]) args hp hk fs hi (by rw [hL]; exact k1) (out := f) (by rw [← hout]; rfl) h2 (hroom out k1)
  refine ⟨out, kept, ?_, k2, k3, k4⟩
  refine Prod.ext rfl (Prod.ext (funext fun g => ?_) a1)
  by_cases hg : g = f
  · rw [hg, a2]; show some out = Function.update fs f (some out) f; rw [Function.update_self]
  · rw [a3 g hg]; show fs g = Function.update fs f (some out) g; rw [Function.update_of_ne hg]

/-! ## Examples -/

/-- A library whose commands copy their first input. -/
def exLib : Lib Unit where
  parse _ args := match args with
    | [i, o] => some ⟨⟨i, "", "", "", "", "", "", o⟩, ()⟩
    | _ => none
  check _ _ := .ok ()
  compute _ _ bs := match bs.headD none with
    | some b => .ok b
    | none => .throws .runtimeError

/-- one file -/
def exFs : Fs := fun f => if f = "a" then some ['x', 'y'] else none

theorem exInput (room : Nat) : HasInputs ⟨fun _ => true, fun _ => true, room⟩ exFs (inputs .unique ⟨"a", "", "", "", "", "", "", "b"⟩) [some ['x', 'y']] :=
  .cons (Or.inr ⟨by simp, rfl, rfl, rfl⟩) .nil

example : (main exLib ⟨fun _ => true, fun _ => true, 5⟩ (some (false, ["unique", "a", "b"])) exFs).2.1 "b" = some ['x', 'y'] :=
  (C92_success exLib ⟨fun _ => true, fun _ => true, 5⟩ (name := "unique") (c := .unique) (by simp [commands]) ["a", "b"] rfl rfl exFs (exInput 5) rfl rfl rfl (by simp)).2.1

/-- one byte too little room -/
example : (main exLib ⟨fun _ => true, fun _ => true, 1⟩ (some (false, ["unique", "a", "b"])) exFs).2.2 = .status 0 ∧
    (main exLib ⟨fun _ => true, fun _ => true, 1⟩ (some (false, ["unique", "a", "b"])) exFs).2.1 "b" = some ['x'] :=
  have h := C92_disk_full exLib ⟨fun _ => true, fun _ => true, 1⟩ (name := "unique") (c := .unique) (by simp [commands]) ["a", "b"] rfl rfl exFs (exInput 1) rfl rfl rfl (by simp)
  ⟨h.1, h.2.1⟩

/-- a missing input -/
example : (main exLib ⟨fun _ => true, fun _ => true, 5⟩ (some (false, ["unique", "c", "b"])) exFs).2.2 = .status 1 := rfl

example := C92_status exLib ⟨fun _ => true, fun _ => true, 5⟩ (name := "unique") (c := .unique) (by simp [commands]) ["c", "b"] exFs

/-- the states passed through: empty, then one byte more each time -/
example : (main exLib ⟨fun _ => true, fun _ => true, 5⟩ (some (false, ["unique", "a", "b"])) exFs).1.map (fun fs => fs "b") = [some [], some ['x'], some ['x', 'y']] := rfl

/-- as `exLib`, with `unique` of the model -/
noncomputable def exLib2 : Lib Unit where
  parse := exLib.parse
  check := exLib.check
  compute _ _ bs := Cli.unique Table.bits Cli.exSearch 1 (some (1 / 2)) ((bs.headD none).getD [])

/-- enough room -/
noncomputable def exRoom : Nat :=
  match Cli.unique Table.bits Cli.exSearch 1 (some (1 / 2)) Cli.exFile with
  | .ok b => b.length
  | _ => 0

/-- a table of three rows replaced by the rows kept -/
example : ∃ (out : Bytes) (kept : List Nat), (main exLib2 ⟨fun _ => true, fun _ => true, exRoom⟩
    (some (false, ["unique", "t", "t"])) fun _ => some Cli.exFile).2.1 "t" = some out ∧ Cli.Holds Table.bits out (kept.map fun i => Cli.exRows.getD i []) 2 := by
  obtain ⟨out, kept, h1, h2, -⟩ := C92_unique_in_place (dim := 1) (d := 1 / 2) Table.bits_ok Cli.exSearch_ok exLib2
    ⟨fun _ => true, fun _ => true, exRoom⟩ ["t", "t"] (f := "t") rfl rfl rfl rfl (.inl rfl)
    (by unfold DistanceFilter.kMinDistance; norm_num) (fun _ => rfl) (fs := fun _ => some Cli.exFile) rfl rfl rfl Cli.exFile_holds (by decide) (by decide)
    (fun out h => by
      have h' : Cli.unique Table.bits Cli.exSearch 1 (some (1 / 2)) Cli.exFile = .ok out := h
      show out.length ≤ exRoom
      unfold exRoom
      rw [h'])
  refine ⟨out, kept, ?_, h2⟩
  rw [h1]
  show Function.update (fun _ : String => some Cli.exFile) "t" (some out) "t" = some out
  rw [Function.update_self]

end Verif.Main
