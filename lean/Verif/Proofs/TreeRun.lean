import Verif.Spec.Tree
import Verif.Props.ExitStatus

/-! A run on a tree is a run on the files seen. -/

namespace Verif.Proofs

open Verif.Model Verif.Model.Cli Verif.Spec Verif.Props

theorem read_seen (t : Tree) (c : Cred) (only : Bytes → Bool) (q : Bytes) (h : only q = false) :
    (seenFiles t c only).read q = (match t.open c q with | .ok content => some content | .error _ => none) := by
  unfold FS.read seenFiles Tree.open
  simp only [h, Bool.false_or]
  cases t.stat c q with
  | error e => rfl
  | ok i =>
    dsimp only
    by_cases hm : c.may (t.inode i) 4 = true
    · rw [if_pos hm, if_pos hm]; rfl
    · rw [if_neg hm, if_neg hm]; rfl

theorem save_seen (t : Tree) (c : Cred) (only : Bytes → Bool) (env : SaveEnv) (words : List Bytes) (p : Bytes)
    (h : ∀ i, t.stat c p = .ok i → (only p || c.may (t.inode i) 4) = true) :
    saveMnemonicT t c env words p = saveMnemonic (seenFiles t c only) (refused t c env p) words p := by
  unfold saveMnemonicT saveMnemonic refused seenFiles
  obtain ⟨r, hs⟩ : ∃ r, t.stat c p = r := ⟨_, rfl⟩
  cases r with
  | ok i =>
    simp only [hs, if_pos (h i hs)]
    rfl
  | error e =>
    simp only [hs]
    by_cases he : e = .noent
    · subst he
      dsimp only
      cases ho : env.openFails <;> cases hc : t.create c p 0o600 <;> cases env.writeFails <;> rfl
    · rw [if_pos he]
      cases e <;> first | rfl | exact absurd rfl he

theorem seedOf_seen (t : Tree) (c : Cred) (env env' : Env) (only : Bytes → Bool) (e : Bytes)
    (hfs : env'.fs = seenFiles t c only) (hin : env'.stdin = env.stdin) (h : e ≠ str "-" → only e = false) :
    seedOfT t c env e = seedOf env' e := by
  unfold seedOfT seedOf
  by_cases he : e = []
  · rw [if_neg (by simpa using he), if_neg (by simpa using he)]
  rw [if_pos he, if_pos he]
  by_cases hd : e = str "-"
  · rw [if_pos hd, if_pos hd, hin]
  rw [if_neg hd, if_neg hd, hfs, read_seen t c only e (h hd)]
  cases t.open c e <;> rfl

theorem inputWords_seen (L : WordList) (t : Tree) (c : Cred) (env env' : Env) (only : Bytes → Bool) (opts : InputFlags)
    (hfs : env'.fs = seenFiles t c only) (hin : env'.stdin = env.stdin) (hraw : env'.rawError = env.rawError)
    (h : only opts.inputWordFile = false) : inputWordsT L t c env opts = inputWords L env' opts := by
  unfold inputWordsT inputWords byLine
  rw [hfs, hin, hraw, read_seen t c only _ h]
  cases t.open c opts.inputWordFile <;> rfl

theorem decode_seen (L : WordList) (C : Crypto) (t : Tree) (c : Cred) (env env' : Env) (only : Bytes → Bool)
    (opts : InputFlags) (hfs : env'.fs = seenFiles t c only) (hin : env'.stdin = env.stdin)
    (hraw : env'.rawError = env.rawError) (h : only opts.inputWordFile = false) :
    decodeMnemonicFromInputT L C t c env opts = decodeMnemonicFromInput L C env' opts := by
  unfold decodeMnemonicFromInputT decodeMnemonicFromInput
  rw [inputWords_seen L t c env env' only opts hfs hin hraw h]

theorem bind_congr_ok {α β : Type} {x : Prog α} {f g : α → Prog β} {st : St}
    (h : ∀ a st1, x st = (.ok a, st1) → f a st1 = g a st1) : (x >>= f) st = (x >>= g) st := by
  rw [show (x >>= f) = Prog.bind x f from rfl, show (x >>= g) = Prog.bind x g from rfl]
  unfold Prog.bind
  generalize hx : x st = r at *
  obtain ⟨o, st1⟩ := r
  cases o with
  | ok a => exact h a st1 rfl
  | _ => rfl

theorem generate_seen (L : WordList) (C : Crypto) (t : Tree) (c : Cred) (env : Env)
    (settings : List (Bytes × FlagValue)) :
    programT L C t c env settings .generate = program L C (seenBy t c env settings .generate) settings .generate := by
  show generateAndPrintKeyT L C t c env (generateOptions settings) =
    generateAndPrintKey L C (seenBy t c env settings .generate) (generateOptions settings)
  generalize hopts : generateOptions settings = opts
  have henv : seenBy t c env settings .generate =
    { env with
      fs := seenFiles t c fun q => q = opts.outputWordFile && (q ≠ opts.unsafeEntropy || q = str "-")
      save := refused t c env.save opts.outputWordFile } := by rw [← hopts]; rfl
  generalize seenBy t c env settings .generate = env' at henv
  have hseed : seedOfT t c env opts.unsafeEntropy = seedOf env' opts.unsafeEntropy :=
    seedOf_seen t c env env' (fun q => q = opts.outputWordFile && (q ≠ opts.unsafeEntropy || q = str "-")) _ (by rw [henv]) (by rw [henv]) (fun h => by
      show (_ && _) = false
      rw [decide_eq_false h, Bool.or_false]
      simp)
  have hsaved : ∀ words, (∀ i, t.stat c opts.outputWordFile = .ok i →
      ((opts.outputWordFile ≠ opts.unsafeEntropy || opts.outputWordFile = str "-") ||
        c.may (t.inode i) 4) = true) → saveT t c env words opts.outputWordFile = save env' words opts.outputWordFile := by
    intro words h
    unfold saveT save
    rw [save_seen t c (fun q => q = opts.outputWordFile && (q ≠ opts.unsafeEntropy || q = str "-")) env.save words _ (fun i hi => by
      have := h i hi
      simpa using this), henv]
  have hnow : env'.now = env.now := by rw [henv]
  have harm : env'.armor = env.armor := by rw [henv]
  have hshow : ∀ words, printMnemonic env' words = printMnemonic env words := fun words => by rw [henv]; rfl
  funext st
  unfold generateAndPrintKeyT generateAndPrintKey
  refine bind_congr_ok fun ttl st1 _ => ?_
  refine bind_congr_ok fun m st2 _ => ?_
  obtain ⟨master, subkeys⟩ := m
  dsimp only
  rw [hseed]
  refine bind_congr_ok fun seed st3 hs => ?_
  have hsave : ∀ words, opts.outputWordFile ≠ [] →
      saveT t c env words opts.outputWordFile = save env' words opts.outputWordFile := by
    intro words hne
    refine hsaved words fun i hi => ?_
    by_cases he : opts.outputWordFile = opts.unsafeEntropy
    · by_cases hd : opts.outputWordFile = str "-"
      · rw [decide_eq_true hd, Bool.or_true, Bool.true_or]
      · rw [decide_eq_false hd, decide_eq_false (by simpa using he), Bool.false_or, Bool.false_or]
        by_contra hm
        rw [← hseed, ← he] at hs
        unfold seedOfT at hs
        rw [if_pos hne, if_neg hd] at hs
        unfold Tree.open at hs
        rw [hi] at hs
        dsimp only at hs
        rw [if_neg hm] at hs
        cases hs
    · rw [decide_eq_true (by simpa using he), Bool.true_or, Bool.true_or]
  rw [hnow]
  refine bind_congr_ok fun mnk st4 _ => ?_
  refine bind_congr_ok fun pw st5 _ => ?_
  refine bind_congr_ok fun key st6 _ => ?_
  refine bind_congr_ok fun words st7 _ => ?_
  rw [harm, hshow]
  by_cases ho : opts.outputWordFile ≠ []
  · rw [if_pos ho, if_pos ho, hsave words ho]
  · rw [if_neg ho, if_neg ho]

theorem recover_seen (L : WordList) (C : Crypto) (t : Tree) (c : Cred) (env : Env)
    (settings : List (Bytes × FlagValue)) :
    programT L C t c env settings .recover = program L C (seenBy t c env settings .recover) settings .recover := by
  show recoverAndPrintKeyT L C t c env (recoverOptions settings) =
    recoverAndPrintKey L C (seenBy t c env settings .recover) (recoverOptions settings)
  unfold recoverAndPrintKeyT recoverAndPrintKey
  rw [decode_seen L C t c env (seenBy t c env settings .recover) (fun _ => false) _ rfl rfl rfl rfl]
  rfl

theorem convert_seen (L : WordList) (C : Crypto) (t : Tree) (c : Cred) (env : Env)
    (settings : List (Bytes × FlagValue)) :
    programT L C t c env settings .convert = program L C (seenBy t c env settings .convert) settings .convert := by
  show decodeAndConvertPhraseT L C t c env (convertOptions settings) =
    decodeAndConvertPhrase L C (seenBy t c env settings .convert) (convertOptions settings)
  funext st
  unfold decodeAndConvertPhraseT decodeAndConvertPhrase
  have hd := decode_seen L C t c env (seenBy t c env settings .convert) (fun _ => false) (convertOptions settings).input
    rfl rfl rfl rfl
  rw [← hd]
  refine bind_congr_ok fun sd st1 h1 => ?_
  obtain ⟨seed, dm⟩ := sd
  refine bind_congr_ok fun words st2 _ => ?_
  by_cases hi : (convertOptions settings).input.inputWordFile = []
  · rw [if_pos hi, if_pos hi]; rfl
  rw [if_neg hi, if_neg hi]
  unfold saveT save
  rw [save_seen t c (fun _ => false) env.save words _ (fun i hs => ?_)]
  · rfl
  rw [Bool.false_or]
  by_contra hm
  unfold decodeMnemonicFromInputT inputWordsT at h1
  rw [if_pos hi] at h1
  unfold Tree.open at h1
  rw [hs] at h1
  dsimp only at h1
  rw [if_neg hm] at h1
  cases h1

theorem program_seen (L : WordList) (C : Crypto) (t : Tree) (c : Cred) (env : Env)
    (settings : List (Bytes × FlagValue)) (cmd : Cmd) :
    programT L C t c env settings cmd = program L C (seenBy t c env settings cmd) settings cmd := by
  cases cmd with
  | root => rfl
  | generate => exact generate_seen L C t c env settings
  | recover => exact recover_seen L C t c env settings
  | convert => exact convert_seen L C t c env settings

theorem mainT_eq (L : WordList) (C : Crypto) (t : Tree) (c : Cred) (env env' : Env) (args : List Bytes) (st : St)
    (hcols : env'.columns = env.columns)
    (h : ∀ cmd settings, Means args (.run cmd settings) → programT L C t c env settings cmd = program L C env' settings cmd) :
    mainT L C t c env args st = main L C env' args st := by
  have key : runCommand env.columns .root (fun _ rest => rootExecuteT L C t c env rest) args st =
      runCommand env'.columns .root (fun _ rest => rootExecute L C env' rest) args st := by
    unfold runCommand
    rw [hcols]
    by_cases hh : args = [str "help"]
    · rw [if_pos hh, if_pos hh]
    rw [if_neg hh, if_neg hh]
    cases hp : parseArgs (formal .root) args with
    | help => rfl
    | failed => rfl
    | ok settings rest =>
      dsimp only
      have hc := (c63_accepted .root args settings rest).1 hp
      have hs : settingsOf settings = [] := by
        have := commandLine_kinds hc
        match settings with
        | [] => rfl
        | p :: _ => obtain ⟨k, hk, _⟩ := this (p.1, valueOf p.2) (by simp [settingsOf]); cases hk
      rw [hs] at hc
      have hx : rootExecuteT L C t c env rest st = rootExecute L C env' rest st := by
        match rest with
        | [] => rfl
        | name :: rest =>
          unfold rootExecuteT rootExecute
          dsimp only
          by_cases hn : name = str "help"
          · rw [if_pos hn, if_pos hn]
          rw [if_neg hn, if_neg hn]
          cases hsub : subcommands name with
          | none => rfl
          | some cmd =>
            dsimp only
            unfold runSubT runSub runCommand
            rw [hcols]
            by_cases hr : rest = [str "help"]
            · rw [if_pos hr, if_pos hr]
            rw [if_neg hr, if_neg hr]
            cases hq : parseArgs (formal cmd) rest with
            | help => rfl
            | failed => rfl
            | ok s pos =>
              dsimp only
              rw [h cmd s (.positional hh hc (.run ((subcommands_iff name cmd).1 hsub) hr
                ((c63_accepted cmd rest s pos).1 hq)))]
      rw [hx]
  unfold mainT main
  rw [key]
  rfl

end Verif.Proofs
