import Verif.Props.CoreOut
import Verif.Props.Standalone

/-!
# C64: the errors of the scripts; C71: the files of scripts
-/

namespace Ced.Props

open Spec

variable {L : Type}

/-- What is written in the debug log about a script that failed. -/
def failureLine (client : Nat) (source message : Str) : Str :=
  str!"client " ++ natStr client ++ str!": exec error: " ++ source ++ str!"\n<<<<<<<\n" ++ message ++ str!"\n>>>>>>>" ++ ['\n']

/-- C64: an error of a script run for a client is written as it is in the log of errors, with its source in the debug
log (when there is one), and told, on one line, to that client and to nobody else; it does not undo what the script has
done; and the caller is told that the script failed. -/
theorem C64_exec {env : EditorEnv L} (hf : ∀ i, (env.core.stale i).follows = true) {e e' : Editor L} {source : Str} {client : Nat}
    {script : Script L} {l : L} {w : World} {message : Str} {answer : Option Str}
    (hs : script e.lua e.core = .ok (l, w, some message)) (hw : CoreHistory CleanName w)
    (h : e.execLua env source client script = .ok (e', answer)) :
    answer = some message ∧ e'.lua = l ∧ e'.session = e.session ∧ e'.menus = e.menus ∧ e'.stopped = e.stopped ∧
    ∃ w1 dbg errs b, e'.core.out = w.out ++ dbg ++ errs ++ [b] ∧
      Echo (some client) (normalizeErrorMessage (str!"exec: " ++ message)) .error b ∧
      (w.debugMode = true → LogLine env.core w w1 str!"*debug*" (failureLine client source message) dbg) ∧
      (w.debugMode = false → w1 = w ∧ dbg = []) ∧
      LogLine env.core w1 e'.core str!"*errors*" (natStr client ++ str!"|exec: " ++ message ++ ['\n']) errs := by
  unfold Editor.execLua at h
  rw [hs] at h
  simp only [except_bind_ok] at h
  obtain ⟨w1, h1, h⟩ := bind_inv h
  obtain ⟨w2, h2, h⟩ := bind_inv h
  cases h
  have hw1 : CoreHistory CleanName w1 := .step (env := env.core) (op := .debug _) hw (by intro n hn; simp [CoreOp.creates] at hn) hf h1
  obtain ⟨errs, b, e1, e2, e3⟩ := C64_error hw1 h2
  refine ⟨rfl, rfl, rfl, rfl, rfl, ?_⟩
  unfold World.debug at h1
  cases hd : w.debugMode with
  | true =>
    rw [hd] at h1
    obtain ⟨h3, h4, h5, h6, ids, h7, h8, h9, h10⟩ := C35_append hw h1
    refine ⟨w1, w1.out.drop w.out.length, errs, b, ?_, e2, fun _ => ?_, fun hh => (by cases hh), ?_⟩
    · have := List.take_append_drop w.out.length w1.out
      rw [h7] at this
      rw [this]
      exact e1
    · exact ⟨h3, h4, h5, h6 (World.encode_ne _), ids, h8, h9, h10⟩
    · simpa [who] using e3
  | false =>
    rw [hd] at h1
    cases h1
    refine ⟨w, [], errs, b, by simpa using e1, e2, fun hh => (by cases hh), fun _ => ⟨rfl, rfl⟩, by simpa [who] using e3⟩

/-- C64: a script that does not fail leaves what it has done, and nothing is logged nor told about it. -/
theorem C64_exec_fine {env : EditorEnv L} {e : Editor L} {source : Str} {client : Nat} {script : Script L} {l : L} {w : World}
    (hs : script e.lua e.core = .ok (l, w, none)) :
    e.execLua env source client script = .ok ({ e with lua := l, core := w }, none) := by
  unfold Editor.execLua
  rw [hs]
  rfl

/-- The states between the scripts of a list, each run without error. -/
inductive RanAll (env : EditorEnv L) : Editor L → List (Str × Str) → Editor L → Prop
  | none (e : Editor L) : RanAll env e [] e
  | one {e e1 e2 : Editor L} {name source : Str} {rest : List (Str × Str)}
      (h : e.execLua env name Standalone.client (env.lua.exec Standalone.client source) = .ok (e1, .none))
      (r : RanAll env e1 rest e2) : RanAll env e ((name, source) :: rest) e2

/-- The source of a file of the command line, after those before it: what is on the disk; `-` is the standard input, of which
nothing is left the second time. -/
def sourceAt (stdin : Option Str) (before : List Str) (name : Str) (disk : Str → Option Str) : Option Str :=
  if name = str!"-" then (if str!"-" ∈ before then some [] else stdin) else disk name

/-- The files have these sources. -/
def HaveSources (stdin : Option Str) (files : List (Str × (Str → Option Str))) (sources : List (Str × Str)) : Prop :=
  files.map (·.1) = sources.map (·.1) ∧
  ∀ before name disk after, files = before ++ (name, disk) :: after →
    (sources[before.length]?).map (·.2) = sourceAt stdin (before.map (·.1)) name disk

theorem sourceAt_cons {stdin stdin' src : Option Str} {name n : Str} {disk d : Str → Option Str} {before : List Str}
    (h : Standalone.readSource disk stdin name = (src, stdin')) : sourceAt stdin' before n d = sourceAt stdin (name :: before) n d := by
  unfold Standalone.readSource at h
  unfold sourceAt
  by_cases hn : n = str!"-"
  · rw [if_pos hn, if_pos hn]
    split at h <;> rename_i hm
    · cases h
      rw [if_pos (show str!"-" ∈ name :: before by rw [hm]; exact List.mem_cons_self ..)]
      split <;> rfl
    · cases h
      have : (str!"-" ∈ name :: before) ↔ str!"-" ∈ before := by
        rw [List.mem_cons]
        exact ⟨fun h => h.resolve_left fun h => hm h.symm, .inr⟩
      simp only [this]
  · rw [if_neg hn, if_neg hn]

theorem sourceAt_first {stdin stdin' src : Option Str} {name : Str} {disk : Str → Option Str}
    (h : Standalone.readSource disk stdin name = (src, stdin')) : sourceAt stdin [] name disk = src := by
  unfold Standalone.readSource at h
  unfold sourceAt
  split at h <;> rename_i hn <;> cases h
  · rw [if_pos hn]; rfl
  · rw [if_neg hn]

theorem sources_cons {stdin stdin' : Option Str} {name source : Str} {disk : Str → Option Str}
    {files : List (Str × (Str → Option Str))} {sources : List (Str × Str)}
    (h : Standalone.readSource disk stdin name = (some source, stdin'))
    (hs : HaveSources stdin' files sources) : HaveSources stdin ((name, disk) :: files) ((name, source) :: sources) := by
  refine ⟨by simp [hs.1], fun before n d after hb => ?_⟩
  cases before with
  | nil =>
    cases hb
    exact (sourceAt_first h).symm
  | cons b bs =>
    rw [List.cons_append] at hb
    injection hb with h1 h2
    subst h1
    have := hs.2 bs n d after h2
    simp only [List.length_cons, List.getElem?_cons_succ, this]
    exact sourceAt_cons h

/-- C71: the files of scripts are read and run one after the other.  Either all of them, none of which fails; or until the first one
that cannot be read, or fails, and then none of those that follow is run. -/
theorem C71_scripts {env : EditorEnv L} {stdin : Option Str} {e e' : Editor L} {files : List (Str × (Str → Option Str))}
    {ended : Standalone.Ended} (h : Standalone.scripts env stdin e files = .ok (e', ended)) :
    (ended = .fine ∧ ∃ sources, HaveSources stdin files sources ∧ RanAll env e sources e') ∨
    ∃ before name disk after sources e1, files = before ++ (name, disk) :: after ∧
      HaveSources stdin before sources ∧ RanAll env e sources e1 ∧
      ((sourceAt stdin (before.map (·.1)) name disk = none ∧ ended = .unreadable name ∧ e' = e1) ∨
       ∃ source message, sourceAt stdin (before.map (·.1)) name disk = some source ∧ ended = .failed name message ∧
        e1.execLua env name Standalone.client (env.lua.exec Standalone.client source) = .ok (e', some message)) := by
  have none' : ∀ stdin, HaveSources stdin [] [] := fun _ => ⟨rfl, fun b n d a h => by simp at h⟩
  induction files generalizing e stdin with
  | nil => cases h; exact .inl ⟨rfl, [], none' _, .none _⟩
  | cons x rest ih =>
    obtain ⟨name, disk⟩ := x
    unfold Standalone.scripts at h
    cases hr : Standalone.readSource disk stdin name with
    | mk src stdin' =>
      rw [hr] at h
      cases src with
      | none =>
        cases h
        exact .inr ⟨[], name, disk, rest, [], _, rfl, none' _, .none _, .inl ⟨sourceAt_first hr, rfl, rfl⟩⟩
      | some source =>
        obtain ⟨⟨e1, err⟩, h1, h⟩ := bind_inv h
        dsimp only at h
        cases err with
        | some m =>
          cases h
          exact .inr ⟨[], name, disk, rest, [], e, rfl, none' _, .none _, .inr ⟨source, m, sourceAt_first hr, rfl, h1⟩⟩
        | none =>
          rcases ih h with ⟨h2, srcs, h3, h4⟩ | ⟨before, n, d, after, srcs, e2, h2, h3, h4, h5⟩
          · exact .inl ⟨h2, _, sources_cons hr h3, .one h1 h4⟩
          · refine .inr ⟨(name, disk) :: before, n, d, after, _, e2, by rw [h2]; rfl, sources_cons hr h3, .one h1 h4, ?_⟩
            rw [List.map_cons, ← sourceAt_cons hr]
            exact h5

/-- C71: a run of files of scripts starts an editor with one client, runs the files, and the client leaves when they all
succeeded; the run fails exactly when one of them cannot be read or fails. -/
theorem C71_run {env : EditorEnv L} {lua : L} {prelude : Script L} {cwd : Path} {args cwdText : Str} {stdin : Option Str}
    {files : List (Str × (Str → Option Str))} {e' : Editor L} {ended : Standalone.Ended}
    (h : Standalone.execScripts env lua prelude cwd args cwdText stdin files = .ok (e', ended)) :
    ∃ e0 e1 e2, Editor.new env lua prelude [] cwd args cwdText = .ok e0 ∧ e0.addClient env Standalone.client = .ok e1 ∧
      Standalone.scripts env stdin e1 files = .ok (e2, ended) ∧
      (ended = .fine → e2.removeClient env Standalone.client = .ok e') ∧ (ended ≠ .fine → e' = e2) := by
  unfold Standalone.execScripts at h
  obtain ⟨e0, h0, h⟩ := bind_inv h
  obtain ⟨e1, h1, h⟩ := bind_inv h
  obtain ⟨⟨e2, b⟩, h2, h⟩ := bind_inv h
  dsimp only at h
  split at h
  · rename_i hb
    subst hb
    obtain ⟨e3, h3, h⟩ := bind_inv h
    cases h
    exact ⟨e0, e1, e2, h0, h1, h2, fun _ => h3, fun hh => absurd rfl hh⟩
  · rename_i hb
    cases h
    exact ⟨e0, e1, _, h0, h1, h2, fun hh => absurd hh hb, fun _ => rfl⟩

/-- C71: running a single file is the same run (`-` being a file of that name). -/
theorem C71_oneshot {env : EditorEnv L} {lua : L} {prelude : Script L} {cwd : Path} {args cwdText : Str} (stdin : Option Str)
    (disk : Str → Option Str) {file : Str} (hf : file ≠ str!"-") :
    Standalone.oneshot env lua prelude cwd args cwdText disk file =
      Standalone.execScripts env lua prelude cwd args cwdText stdin [(file, disk)] := by
  unfold Standalone.oneshot Standalone.execScripts Standalone.scripts
  cases Editor.new env lua prelude [] cwd args cwdText with
  | error k => rfl
  | ok e0 =>
    simp only [except_bind_ok]
    cases e0.addClient env Standalone.client with
    | error k => rfl
    | ok e1 =>
      simp only [except_bind_ok]
      rw [show Standalone.readSource disk stdin file = (disk file, stdin) from if_neg hf]
      cases disk file with
      | none => rfl
      | some source =>
        dsimp only
        cases e1.execLua env file Standalone.client (env.lua.exec Standalone.client source) with
        | error k => rfl
        | ok x =>
          obtain ⟨e2, m⟩ := x
          cases m <;> rfl

/-- an engine on which an empty script fails -/
def engB : LuaEngine :=
  { engA with exec := fun c s l w => if s = [] then .ok (l, w, some str!"bad\nscript") else (w.message envA (some c) s).map fun w => (l, w, none) }

def cedEnvB : EditorEnv LuaState := { cedEnv with lua := Scripts.lua engB }

/-- what is left after a run of files: how it ended, the log of messages and the last message told -/
def ranB (stdin : Option Str) (files : List (Str × Option Str)) :
    Option (Standalone.Ended × Option (Except Panic Bytes) × Option Broadcast) :=
  (Standalone.execScripts cedEnvB ⟨[], []⟩ (Scripts.prelude engB) [] [] [] stdin (files.map fun f => (f.1, fun _ => f.2))).toOption.map
    fun r => (r.2, (r.1.core.buffers.get BUFFER_MESSAGES).map fun b => b.content.text, r.1.core.out.getLast?)

/-- C64_exec, C71_scripts and C71_run apply: a script that fails, none that fails, a file that cannot be read, and the standard
input, which is an empty script (failing in this engine) the second time. -/
example : ranB none [(str!"f", some str!"a"), (str!"g", some []), (str!"h", some str!"c")] =
    some (.failed str!"g" str!"bad\nscript", some (.ok (Str.encode str!"1|a\n")), some ⟨some [1], .echo str!"exec: bad\\nscript" .error⟩) := by decide +kernel

example : (ranB none [(str!"f", some str!"a"), (str!"h", some str!"c")]).map (fun x => (x.1, x.2.1)) =
      some (.fine, some (.ok (Str.encode str!"1|a\n1|c\n"))) ∧
    (ranB none [(str!"f", some str!"a"), (str!"g", none), (str!"h", some str!"c")]).map (fun x => (x.1, x.2.1)) =
      some (.unreadable str!"g", some (.ok (Str.encode str!"1|a\n"))) ∧
    (ranB (some str!"b") [(str!"-", none), (str!"f", some str!"a"), (str!"-", none)]).map (fun x => (x.1, x.2.1)) =
      some (.failed str!"-" str!"bad\nscript", some (.ok (Str.encode str!"1|b\n1|a\n"))) := by decide +kernel

end Ced.Props
