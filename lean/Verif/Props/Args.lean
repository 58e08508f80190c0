import Verif.Proofs.CliArgs
import Mathlib.Data.List.Induction

/-!
# Command lines (C63, C64)
-/

namespace Verif.Props

open Verif.Model Verif.Model.Cli Verif.Proofs Verif.Spec

/-- The documented options of a command -/
def options : Cmd → Bytes → Option Kind
  | .root, _ => none
  | .generate, name => generateTable.lookup name
  | .recover, name => recoverTable.lookup name
  | .convert, name => convertTable.lookup name

theorem lookup_map {l : List (Bytes × FlagKind)} (name : Bytes) :
    (l.lookup name).map kindOf = (l.map fun p => (p.1, kindOf p.2)).lookup name := by
  induction l with
  | nil => rfl
  | cons p l ih =>
    rw [List.map_cons, List.lookup_cons, List.lookup_cons]
    split
    · rfl
    · exact ih

theorem lookup_eq_none_of {β : Type} {l : List (Bytes × β)} {name : Bytes}
    (h : name ∉ l.map Prod.fst) : l.lookup name = none := by
  induction l with
  | nil => rfl
  | cons p l ih =>
    simp only [List.map_cons, List.mem_cons, not_or] at h
    rw [List.lookup_cons, beq_eq_false_iff_ne.2 h.1]
    exact ih h.2

/-- Two tables with the same names that agree on them -/
theorem tables_eq {β : Type} {l m : List (Bytes × β)} (h1 : ∀ n ∈ l.map Prod.fst, l.lookup n = m.lookup n)
    (h2 : ∀ n ∈ m.map Prod.fst, n ∈ l.map Prod.fst) (name : Bytes) : l.lookup name = m.lookup name := by
  by_cases h : name ∈ l.map Prod.fst
  · exact h1 name h
  · rw [lookup_eq_none_of h, lookup_eq_none_of (fun hm => h (h2 name hm))]

/-- The options registered are the documented ones. -/
theorem kinds_formal (cmd : Cmd) : kinds (formal cmd) = options cmd := by
  funext name
  unfold kinds formal
  rw [lookup_map]
  cases cmd with
  | root => rfl
  | generate => exact tables_eq (by decide +kernel) (by decide +kernel) name
  | recover => exact tables_eq (by decide +kernel) (by decide +kernel) name
  | convert => exact tables_eq (by decide +kernel) (by decide +kernel) name

/-- A command line is accepted, with these settings and positional arguments, exactly if it is one of
the documented form with the documented options. -/
theorem c63_accepted (cmd : Cmd) (args : List Bytes) (settings : List (Bytes × FlagValue))
    (rest : List Bytes) : parseArgs (formal cmd) args = .ok settings rest ↔
      CommandLine (options cmd) (settingsOf settings) rest args := by
  rw [← kinds_formal]
  exact parseArgs_ok (goodNames cmd) args settings rest

/-- Help is shown exactly if it is asked for. -/
theorem c63_help (cmd : Cmd) (args : List Bytes) :
    parseArgs (formal cmd) args = .help ↔ AsksHelp (options cmd) args := by
  rw [← kinds_formal]
  exact parseArgs_help (goodNames cmd) args

/-- All other command lines are refused. -/
theorem c63_refused (cmd : Cmd) (args : List Bytes) : parseArgs (formal cmd) args = .failed ↔
    ¬ AsksHelp (options cmd) args ∧ ¬ ∃ settings rest, CommandLine (options cmd) settings rest args := by
  rw [← c63_help]
  constructor
  · intro h
    refine ⟨by rw [h]; simp, ?_⟩
    rintro ⟨settings, rest, hc⟩
    rw [← settingsOf_surj settings, ← c63_accepted, h] at hc
    cases hc
  · rintro ⟨h1, h2⟩
    cases h : parseArgs (formal cmd) args with
    | ok settings rest => exact absurd ⟨_, _, (c63_accepted cmd args settings rest).1 h⟩ h2
    | help => exact absurd h h1
    | failed => rfl

/-- A command line has only one reading. -/
theorem c63_unambiguous (cmd : Cmd) (args rest rest' : List Bytes) (s s' : List (Bytes × Value))
    (h : CommandLine (options cmd) s rest args) (h' : CommandLine (options cmd) s' rest' args) :
    s = s' ∧ rest = rest' ∧ ¬ AsksHelp (options cmd) args := by
  rw [← settingsOf_surj s, ← c63_accepted] at h
  rw [← settingsOf_surj s', ← c63_accepted, h] at h'
  simp only [ParsedArgs.ok.injEq] at h'
  refine ⟨?_, h'.2, ?_⟩
  · rw [← settingsOf_surj s, h'.1, settingsOf_surj]
  · rw [← c63_help, h]
    simp

/-! ## Options -/

/-- The value given to an option, the last if there are several, or else the default -/
def text (settings : List (Bytes × Value)) (name : String) (default : Bytes) : Bytes :=
  match lastOf settings (str name) with
  | some (.string v) => v
  | _ => default

def switchedOn (settings : List (Bytes × Value)) (name : String) (default : Bool) : Bool :=
  match lastOf settings (str name) with
  | some (.bool b) => b
  | _ => default

def number (settings : List (Bytes × Value)) (name : String) : Nat :=
  match lastOf settings (str name) with
  | some (.uint n) => n
  | _ => 0

theorem lastOf_snoc (l : List (Bytes × Value)) (p : Bytes × Value) (name : Bytes) :
    lastOf (l ++ [p]) name = if p.1 = name then some p.2 else lastOf l name := by
  unfold lastOf
  rw [List.reverse_append, List.reverse_singleton, List.singleton_append, List.find?_cons]
  by_cases h : p.1 = name
  · simp [h]
  · simp [h]

def HasKind : Kind → Value → Prop
  | .bool, .bool _ => True
  | .string, .string _ => True
  | .uint, .uint _ => True
  | _, _ => False

theorem reads_kind {k : Kind} {v : Bytes} {x : Value} (h : Reads k v x) : HasKind k x := by
  cases h <;> trivial

theorem commandLine_kinds {kind : Bytes → Option Kind} {settings rest args}
    (h : CommandLine kind settings rest args) :
    ∀ p ∈ settings, ∃ k, kind p.1 = some k ∧ HasKind k p.2 := by
  induction h with
  | nothing => simp
  | positional => simp
  | dashes => simp
  | equals _ hk hr _ ih =>
    intro p hp
    rcases List.mem_cons.1 hp with rfl | hp
    · exact ⟨_, hk, reads_kind hr⟩
    · exact ih p hp
  | switch _ hk _ ih =>
    intro p hp
    rcases List.mem_cons.1 hp with rfl | hp
    · exact ⟨_, hk, trivial⟩
    · exact ih p hp
  | next _ hk _ hr _ ih =>
    intro p hp
    rcases List.mem_cons.1 hp with rfl | hp
    · exact ⟨_, hk, reads_kind hr⟩
    · exact ih p hp

theorem settingsOf_snoc (l : List (Bytes × FlagValue)) (p : Bytes × FlagValue) :
    settingsOf (l ++ [p]) = settingsOf l ++ [(p.1, valueOf p.2)] := by simp [settingsOf]

theorem lookup_cases {β : Type} {l : List (Bytes × β)} {name : Bytes} {k : β}
    (h : l.lookup name = some k) : (name, k) ∈ l := by
  induction l with
  | nil => cases h
  | cons p l ih =>
    rw [List.lookup_cons] at h
    split at h
    · rename_i hb
      have := eq_of_beq hb
      cases h
      rw [this]
      exact List.mem_cons_self
    · exact List.mem_cons_of_mem _ (ih h)

/-- What the settings say -/
def generateMeans (s : List (Bytes × Value)) : GenerateOptions :=
  { key := { name := text s "name" (str "anonymous"), email := text s "email" [], ttl := text s "ttl" []
             encryptKeys := switchedOn s "encrypt-keys" false, only := text s "only" [] }
    outputWordFile := text s "out-word-file" []
    encryptPhrase := switchedOn s "encrypt-phrase" false
    unsafeEntropy := text s "unsafe-entropy" [] }

theorem generateOptions_eq (s : List (Bytes × FlagValue))
    (h : ∀ p ∈ settingsOf s, ∃ k, options .generate p.1 = some k ∧ HasKind k p.2) :
    generateOptions s = generateMeans (settingsOf s) := by
  induction s using List.reverseRecOn with
  | nil => rfl
  | append_singleton l p ih =>
    rw [settingsOf_snoc] at h ⊢
    have ih := ih (fun q hq => h q (by simp [hq]))
    obtain ⟨k, hk, hv⟩ := h (p.1, valueOf p.2) (by simp)
    have hm := lookup_cases hk
    unfold generateOptions at ih ⊢
    rw [List.foldl_append, ih]
    generalize settingsOf l = S
    obtain ⟨name, value⟩ := p
    simp only [generateTable, List.mem_cons, List.not_mem_nil, or_false, Prod.mk.injEq] at hm
    rcases hm with ⟨rfl, rfl⟩ | ⟨rfl, rfl⟩ | ⟨rfl, rfl⟩ | ⟨rfl, rfl⟩ | ⟨rfl, rfl⟩ | ⟨rfl, rfl⟩ | ⟨rfl, rfl⟩ | ⟨rfl, rfl⟩ | ⟨rfl, rfl⟩ <;>
      cases value <;>
      first
      | exact hv.elim
      | simp (decide := true) only [List.foldl_cons, List.foldl_nil, setGenerate, setKeyFlag, generateMeans, text,
          switchedOn, lastOf_snoc, valueOf, if_true, if_false]

/-- The options of `generate` are the last values given, or the documented defaults. -/
theorem c63_generate (args rest : List Bytes) (s : List (Bytes × FlagValue))
    (h : CommandLine (options .generate) (settingsOf s) rest args) :
    generateOptions s = generateMeans (settingsOf s) :=
  generateOptions_eq s (commandLine_kinds h)

def recoverMeans (s : List (Bytes × Value)) : RecoverOptions :=
  { key := { name := text s "name" (str "anonymous"), email := text s "email" [], ttl := text s "ttl" []
             encryptKeys := switchedOn s "encrypt-keys" false, only := text s "only" [] }
    input := { simple := switchedOn s "simple" false, inputWordFile := text s "in-word-file" [] }
    selfCert := switchedOn s "self-cert" true
    encIndex := number s "enc-index"
    authIndex := number s "auth-index"
    sigIndex := number s "sig-index" }

theorem recoverOptions_eq (s : List (Bytes × FlagValue))
    (h : ∀ p ∈ settingsOf s, ∃ k, options .recover p.1 = some k ∧ HasKind k p.2) :
    recoverOptions s = recoverMeans (settingsOf s) := by
  induction s using List.reverseRecOn with
  | nil => rfl
  | append_singleton l p ih =>
    rw [settingsOf_snoc] at h ⊢
    have ih := ih (fun q hq => h q (by simp [hq]))
    obtain ⟨k, hk, hv⟩ := h (p.1, valueOf p.2) (by simp)
    have hm := lookup_cases hk
    unfold recoverOptions at ih ⊢
    rw [List.foldl_append, ih]
    generalize settingsOf l = S
    obtain ⟨name, value⟩ := p
    simp only [recoverTable, List.mem_cons, List.not_mem_nil, or_false, Prod.mk.injEq] at hm
    rcases hm with ⟨rfl, rfl⟩ | ⟨rfl, rfl⟩ | ⟨rfl, rfl⟩ | ⟨rfl, rfl⟩ | ⟨rfl, rfl⟩ | ⟨rfl, rfl⟩ | ⟨rfl, rfl⟩ | ⟨rfl, rfl⟩ | ⟨rfl, rfl⟩ | ⟨rfl, rfl⟩ | ⟨rfl, rfl⟩ | ⟨rfl, rfl⟩ <;>
      cases value <;>
      first
      | exact hv.elim
      | simp (decide := true) only [List.foldl_cons, List.foldl_nil, setRecover, setKeyFlag, setInputFlag, recoverMeans, text,
          switchedOn, number, lastOf_snoc, valueOf, if_true, if_false]

/-- The options of `recover` are the last values given, or the documented defaults. -/
theorem c63_recover (args rest : List Bytes) (s : List (Bytes × FlagValue))
    (h : CommandLine (options .recover) (settingsOf s) rest args) :
    recoverOptions s = recoverMeans (settingsOf s) :=
  recoverOptions_eq s (commandLine_kinds h)

def convertMeans (s : List (Bytes × Value)) : ConvertOptions :=
  { input := { simple := switchedOn s "simple" false, inputWordFile := text s "in-word-file" [] }
    outputWordFile := text s "out-word-file" []
    encryptPhrase := switchedOn s "encrypt-phrase" false }

theorem convertOptions_eq (s : List (Bytes × FlagValue))
    (h : ∀ p ∈ settingsOf s, ∃ k, options .convert p.1 = some k ∧ HasKind k p.2) :
    convertOptions s = convertMeans (settingsOf s) := by
  induction s using List.reverseRecOn with
  | nil => rfl
  | append_singleton l p ih =>
    rw [settingsOf_snoc] at h ⊢
    have ih := ih (fun q hq => h q (by simp [hq]))
    obtain ⟨k, hk, hv⟩ := h (p.1, valueOf p.2) (by simp)
    have hm := lookup_cases hk
    unfold convertOptions at ih ⊢
    rw [List.foldl_append, ih]
    generalize settingsOf l = S
    obtain ⟨name, value⟩ := p
    simp only [convertTable, List.mem_cons, List.not_mem_nil, or_false, Prod.mk.injEq] at hm
    rcases hm with ⟨rfl, rfl⟩ | ⟨rfl, rfl⟩ | ⟨rfl, rfl⟩ | ⟨rfl, rfl⟩ | ⟨rfl, rfl⟩ <;>
      cases value <;>
      first
      | exact hv.elim
      | simp (decide := true) only [List.foldl_cons, List.foldl_nil, setConvert, setInputFlag, convertMeans, text,
          switchedOn, lastOf_snoc, valueOf, if_true, if_false]

/-- The options of `convert` are the last values given, or the documented defaults. -/
theorem c63_convert (args rest : List Bytes) (s : List (Bytes × FlagValue))
    (h : CommandLine (options .convert) (settingsOf s) rest args) :
    convertOptions s = convertMeans (settingsOf s) :=
  convertOptions_eq s (commandLine_kinds h)

/-- `recover -name=x --enc-index 010 -simple -name y z`: the second name counts, 010 is eight, z is left. -/
example : CommandLine (options .recover)
    [(str "name", .string (str "x")), (str "enc-index", .uint 8), (str "simple", .bool true),
      (str "name", .string (str "y"))] [str "z"]
    [str "-name=x", str "--enc-index", str "010", str "-simple", str "-name", str "y", str "z"] :=
  (c63_accepted .recover _ [(str "name", .string (str "x")), (str "enc-index", .uint 8),
    (str "simple", .bool true), (str "name", .string (str "y"))] _).1 (by decide +kernel)

example : AsksHelp (options .convert) [str "-simple", str "--h"] := (c63_help .convert _).1 (by decide +kernel)

example : parseArgs (formal .convert) [str "-encrypt"] = .failed ∧
    parseArgs (formal .recover) [str "-enc-index", str "-1"] = .failed ∧
    parseArgs (formal .recover) [str "-enc-index", str "1__0"] = .failed ∧
    parseArgs (formal .recover) [str "-enc-index", str "18446744073709551616"] = .failed ∧
    parseArgs (formal .recover) [str "-simple=yes"] = .failed ∧
    parseArgs (formal .generate) [str "-name"] = .failed := by decide +kernel

end Verif.Props
