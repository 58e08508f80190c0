import Verif.Model.Cli.Output
import Verif.Proofs.CliConcurrent

/-! # The programs with their messages -/

namespace Verif.Proofs

open Verif.Model Verif.Model.Cli

/-- The action of an event -/
def actOf : Ev → Option Act
  | .act a => some a
  | _ => none

/-- A state without the messages -/
def erase (st : StV) : St := ⟨st.prompts, st.rnd, st.events.filterMap actOf⟩

/-- But for its messages the first program is the second. -/
def Refines {α : Type} (x : ProgV α) (y : Prog α) : Prop :=
  ∀ st, (x st).1 = (y (erase st)).1 ∧ erase (x st).2 = (y (erase st)).2

/-- What a program does is independent of the actions done before it. -/
def Plain {α : Type} (y : Prog α) : Prop :=
  ∀ st, y st = ((y ⟨st.prompts, st.rnd, []⟩).1, ⟨(y ⟨st.prompts, st.rnd, []⟩).2.prompts,
    (y ⟨st.prompts, st.rnd, []⟩).2.rnd, st.acts ++ (y ⟨st.prompts, st.rnd, []⟩).2.acts⟩)

theorem plain_lift {α : Type} (r : Res α) : Plain (lift r) := by
  intro st; cases r <;> simp [lift]

theorem plain_password (c : Bool) : Plain (userInputPassword c) := by
  rintro ⟨ps, rnd, acts⟩
  cases ps with
  | nil => simp [userInputPassword]
  | cons p ps => cases p <;> simp [userInputPassword]

theorem plain_random {α : Type} (f : Bytes → Res (α × Bytes)) : Plain (random f) := by
  rintro ⟨ps, rnd, acts⟩
  unfold random
  dsimp only
  cases f rnd <;> simp

theorem plain_emit (as : List Act) : Plain (emit as) := by
  intro st; simp [emit]

theorem bindV_run {α β : Type} (x : ProgV α) (f : α → ProgV β) (st : StV) :
    (x >>= f) st = match x st with
      | (.ok a, st1) => f a st1
      | (.err e, st1) => (.err e, st1)
      | (.panic p, st1) => (.panic p, st1)
      | (.waits c, st1) => (.waits c, st1)
      | (.loops, st1) => (.loops, st1) := rfl

theorem bindP_run {α β : Type} (x : Prog α) (f : α → Prog β) (st : St) :
    (x >>= f) st = match x st with
      | (.ok a, st1) => f a st1
      | (.err e, st1) => (.err e, st1)
      | (.panic p, st1) => (.panic p, st1)
      | (.waits c, st1) => (.waits c, st1)
      | (.loops, st1) => (.loops, st1) := rfl

theorem plain_bind {α β : Type} {x : Prog α} {f : α → Prog β} (hx : Plain x) (hf : ∀ a, Plain (f a)) :
    Plain (x >>= f) := by
  intro st
  rw [bindP_run, bindP_run, hx st]
  cases h : x ⟨st.prompts, st.rnd, []⟩ with
  | mk o s =>
    cases o with
    | ok a =>
      dsimp only
      rw [hf a, hf a s]
      simp
    | _ => rfl

theorem plain_save (env : Env) (ws : List Bytes) (p : Bytes) : Plain (save env ws p) :=
  plain_bind (plain_emit _) fun _ => plain_lift _

theorem plain_seedOf (env : Env) (u : Bytes) : Plain (seedOf env u) := by
  unfold seedOf
  split
  · exact plain_lift _
  · exact plain_random _

theorem plain_exportKey (C : Crypto) (mnk : Mnemonikey) (m s : Bool) (p : Bytes) : Plain (exportKey C mnk m s p) := by
  unfold exportKey
  split
  · exact plain_random _
  · exact plain_random _

theorem plain_askSeed (C : Crypto) (dm : DecodedMnemonic) : Plain (askSeed C dm) := by
  intro st; simp [askSeed]

theorem filterMap_act (as : List Act) : (as.map Ev.act).filterMap actOf = as := by
  induction as with
  | nil => rfl
  | cons a as ih => rw [List.map_cons, List.filterMap_cons, ih]; rfl

theorem refines_silent {α : Type} {y : Prog α} (h : Plain y) : Refines (silent y) y := by
  intro st
  rw [h (erase st)]
  refine ⟨rfl, ?_⟩
  simp only [silent, erase, List.filterMap_append, filterMap_act]

theorem refines_pure {α : Type} (a : α) : Refines (pure a) (pure a) := fun _ => ⟨rfl, rfl⟩

theorem refines_bind {α β : Type} {x : ProgV α} {y : Prog α} {f : α → ProgV β} {g : α → Prog β}
    (hx : Refines x y) (hf : ∀ a, Refines (f a) (g a)) : Refines (x >>= f) (y >>= g) := by
  intro st
  rw [bindV_run, bindP_run]
  obtain ⟨h1, h2⟩ := hx st
  cases h : x st with
  | mk o s =>
    cases h' : y (erase st) with
    | mk o' s' =>
      rw [h, h'] at h1 h2
      dsimp only at h1 h2
      subst h1 h2
      cases o with
      | ok a => exact hf a s
      | _ => exact ⟨rfl, rfl⟩

/-- Something that only writes messages, followed by more -/
theorem refines_then {α : Type} {x : ProgV Unit} {f : Unit → ProgV α} {g : Prog α} (hx : Refines x (pure ()))
    (hf : ∀ a, Refines (f a) g) : Refines (x >>= f) g := by
  have := refines_bind hx hf
  exact this

theorem refines_event {e : Ev} (h : actOf e = none) : Refines (event e) (pure ()) := by
  intro st
  refine ⟨rfl, ?_⟩
  show erase { st with events := st.events ++ [e] } = erase st
  simp [erase, h]

theorem refines_eprint (t : Bytes) : Refines (eprint t) (pure ()) := refines_event rfl

theorem filterMap_err (ts : List Bytes) : (ts.map Ev.err).filterMap actOf = [] := by
  rw [List.filterMap_eq_nil_iff]
  intro e he
  obtain ⟨t, -, rfl⟩ := List.mem_map.1 he
  rfl

theorem refines_eprints (ts : List Bytes) : Refines (eprints ts) (pure ()) := by
  intro st
  refine ⟨rfl, ?_⟩
  show erase { st with events := st.events ++ ts.map .err } = erase st
  simp only [erase, List.filterMap_append, filterMap_err, List.append_nil]

theorem refines_ite {α : Type} {c : Prop} [Decidable c] {x x' : ProgV α} {y y' : Prog α} (h : Refines x y)
    (h' : Refines x' y') : Refines (if c then x else x') (if c then y else y') := by
  split <;> assumption

theorem refines_when {c : Prop} [Decidable c] {x : ProgV Unit} (h : Refines x (pure ())) :
    Refines (if c then x else pure ()) (pure ()) := by
  split
  · exact h
  · exact refines_pure _

/-- A step taken only under a condition, which only writes messages -/
theorem refines_opt {α : Type} {c : Prop} [Decidable c] {x z : ProgV α} {y : Prog α} (hx : Refines z y → Refines x y)
    (hz : Refines z y) : Refines (if c then x else z) y := by
  split
  · exact hx hz
  · exact hz

theorem refines_opt₂ {α : Type} {c : Prop} [Decidable c] {x z : ProgV α} {x' z' : Prog α}
    (hx : Refines z z' → Refines x x') (hz : Refines z z') : Refines (if c then x else z) (if c then x' else z') := by
  split
  · exact hx hz
  · exact hz

theorem refines_askPassword (p : Bytes) (c : Bool) : Refines (askPassword p c) (userInputPassword c) :=
  refines_then (refines_event rfl) fun _ => refines_silent (plain_password c)

theorem refines_printKey (a : Bytes) : Refines (printKeyV a) (printKey a) := by
  intro st
  obtain ⟨h1, h2⟩ := refines_silent (plain_emit ((a ++ str "\n").map .stdout)) (eprint magentaStart st).2
  obtain ⟨h3, h4⟩ := refines_eprint magentaStart st
  refine ⟨rfl, ?_⟩
  have : (printKeyV a st).2 = (eprint colorEnd (silent (printKey a) (eprint magentaStart st).2).2).2 := rfl
  rw [this, (refines_eprint colorEnd _).2]
  show erase (silent (emit _) _).2 = _
  rw [h2, h4]
  rfl

theorem refines_printMnemonic (env : Env) (ws : List Bytes) : Refines (printMnemonicV env ws) (printMnemonic env ws) := by
  have h1 : Refines (event (.act (.showPhrase ws))) (emit [.showPhrase ws]) := by
    intro st
    refine ⟨rfl, ?_⟩
    show erase { st with events := st.events ++ [_] } = ⟨_, _, _⟩
    simp [erase, actOf]
  have h2 : printMnemonic env ws = (do
      emit [.showPhrase ws]
      match justifyTerminalWidth 19 env.columns 0 notice with
      | none => fun st => (.loops, st)
      | some r => do let _ ← lift r; pure () : Prog Unit) := by
    funext st
    unfold printMnemonic
    rcases justifyTerminalWidth 19 env.columns 0 notice with _ | (_ | _ | _) <;> rfl
  rw [h2]
  unfold printMnemonicV
  refine refines_bind h1 fun _ => refines_then (refines_eprint _) fun _ => refines_then (refines_eprints _) fun _ =>
    refines_then (refines_eprint _) fun _ => ?_
  cases justifyTerminalWidth 19 env.columns 0 notice with
  | none => exact fun st => ⟨rfl, rfl⟩
  | some r => exact refines_bind (refines_silent (plain_lift _)) fun _ => refines_then (refines_eprint _) fun _ => refines_eprint _

theorem passwordLoopV_same (C : Crypto) (dm : DecodedMnemonic) : ∀ ps : List (Res Bytes),
    (passwordLoopV C dm ps).1 = (passwordLoop C dm ps).1 ∧ (passwordLoopV C dm ps).2.1 = (passwordLoop C dm ps).2 ∧
      (passwordLoopV C dm ps).2.2.filterMap actOf = []
  | [] => ⟨rfl, rfl, rfl⟩
  | .err e :: rest => ⟨rfl, rfl, rfl⟩
  | .panic p :: rest => ⟨rfl, rfl, rfl⟩
  | .ok password :: rest => by
    have ih := passwordLoopV_same C dm rest
    unfold passwordLoopV passwordLoop
    cases h : dm.decryptSeed C.toPhraseCrypto password with
    | err e =>
      cases e
      case mnemonicDecryption => refine ⟨ih.1, ih.2.1, ?_⟩; simpa [actOf] using ih.2.2
      all_goals simp [actOf]
    | _ => simp [actOf]

theorem refines_askSeed (C : Crypto) (dm : DecodedMnemonic) : Refines (askSeedV C dm) (askSeed C dm) := by
  intro st
  unfold askSeedV
  by_cases h : dm.encrypted = true
  · rw [if_pos h]
    obtain ⟨h1, h2, h3⟩ := passwordLoopV_same C dm st.prompts
    simp only [askSeed, seedLoop, if_pos h, erase, h1, h2, List.filterMap_append, h3, List.append_nil, and_self]
  · rw [if_neg h]
    exact refines_silent (plain_askSeed C dm) st

theorem refines_askWords (env : Env) (opts : InputFlags) : Refines (askWordsV env opts) (pure ()) :=
  refines_then (refines_eprints _) fun _ => refines_event rfl

theorem refines_decode (L : WordList) (C : Crypto) (env : Env) (opts : InputFlags) (v : Bool) :
    Refines (decodeMnemonicFromInputV L C env opts v) (decodeMnemonicFromInput L C env opts) := by
  unfold decodeMnemonicFromInputV decodeMnemonicFromInput
  refine refines_opt (fun h => refines_then (refines_askWords env opts) fun _ => h) ?_
  refine refines_bind (refines_silent (plain_lift _)) fun ws => ?_
  refine refines_bind (refines_silent (plain_lift _)) fun dm => ?_
  refine refines_opt (fun h => refines_then (refines_eprint _) fun _ => refines_then (refines_eprints _) fun _ =>
    refines_then (refines_eprint _) fun _ => h) ?_
  exact refines_bind (refines_askSeed C dm) fun _ => refines_pure _

theorem refines_keyPassword (b : Bool) :
    Refines (if b then askPassword keyPasswordPrompt true else pure [] : ProgV Bytes) (keyPassword b) := by
  unfold keyPassword
  exact refines_ite (refines_askPassword _ _) (refines_pure _)

theorem refines_generate (F : Fmt) (L : WordList) (C : Crypto) (env : Env) (opts : GenerateOptions) (v : Bool) :
    Refines (generateAndPrintKeyV F L C env opts v) (generateAndPrintKey L C env opts) := by
  unfold generateAndPrintKeyV generateAndPrintKey
  refine refines_bind (refines_silent (plain_lift _)) fun ttl => ?_
  refine refines_bind (refines_silent (plain_lift _)) fun ms => ?_
  refine refines_opt (fun h => refines_then (refines_eprint _) fun _ => h) ?_
  refine refines_bind (refines_silent (plain_seedOf _ _)) fun seed => ?_
  refine refines_bind (refines_silent (plain_lift _)) fun mnk => ?_
  refine refines_bind (refines_keyPassword _) fun pw => ?_
  refine refines_bind (refines_silent (plain_exportKey _ _ _ _ _)) fun key => ?_
  refine refines_bind (refines_ite (refines_bind (refines_askPassword _ _) fun _ =>
    refines_silent (plain_random _)) (refines_silent (plain_lift _))) fun ws => ?_
  dsimp only
  refine refines_opt₂ (fun h => refines_bind (refines_silent (plain_save _ _ _)) fun _ => h) ?_
  refine refines_opt (fun h => refines_then (refines_eprint _) fun _ => refines_then (refines_eprints _) fun _ =>
    refines_then (refines_eprint _) fun _ => h) ?_
  refine refines_bind (refines_printKey _) fun _ => ?_
  exact refines_ite (refines_printMnemonic _ _) (refines_pure _)

theorem refines_recover (F : Fmt) (L : WordList) (C : Crypto) (env : Env) (opts : RecoverOptions) (v : Bool) :
    Refines (recoverAndPrintKeyV F L C env opts v) (recoverAndPrintKey L C env opts) := by
  unfold recoverAndPrintKeyV recoverAndPrintKey
  refine refines_bind (refines_silent (plain_lift _)) fun ttl => ?_
  refine refines_ite (refines_silent (plain_lift _)) ?_
  refine refines_bind (refines_silent (plain_lift _)) fun ms => ?_
  refine refines_bind (refines_decode _ _ _ _ _) fun sd => ?_
  refine refines_bind (refines_silent (plain_lift _)) fun mnk => ?_
  refine refines_bind (refines_keyPassword _) fun pw => ?_
  refine refines_bind (refines_silent (plain_exportKey _ _ _ _ _)) fun key => ?_
  refine refines_opt (fun h => refines_then (refines_eprint _) fun _ => refines_then (refines_eprints _) fun _ =>
    refines_then (refines_eprint _) fun _ => h) ?_
  exact refines_printKey _

theorem refines_convert (L : WordList) (C : Crypto) (env : Env) (opts : ConvertOptions) (v : Bool) :
    Refines (decodeAndConvertPhraseV L C env opts v) (decodeAndConvertPhrase L C env opts) := by
  unfold decodeAndConvertPhraseV decodeAndConvertPhrase
  refine refines_bind (refines_decode _ _ _ _ _) fun sd => ?_
  refine refines_bind (refines_ite (refines_bind (refines_askPassword _ _) fun _ =>
    refines_silent (plain_random _)) (refines_silent (plain_lift _))) fun ws => ?_
  exact refines_ite (refines_printMnemonic _ _) (refines_silent (plain_save _ _ _))

/-! ## where a phrase is shown -/

/-- A program only adds events, of which something is known. -/
def Adds {α : Type} (x : ProgV α) (P : List Ev → Prop) : Prop :=
  ∀ st, ∃ es, (x st).2.events = st.events ++ es ∧ P es

def NoPhrase (es : List Ev) : Prop := ∀ ws, Ev.act (.showPhrase ws) ∉ es

/-- After the words of a phrase come these texts, and nothing else. -/
def PhraseLast (texts : List Bytes → List Bytes) (es : List Ev) : Prop :=
  ∀ pre ws post, es = pre ++ Ev.act (.showPhrase ws) :: post → post = (texts ws).map .err

theorem NoPhrase.last {texts : List Bytes → List Bytes} {es : List Ev} (h : NoPhrase es) : PhraseLast texts es := by
  intro pre ws post e
  exact absurd (by rw [e]; simp) (h ws)

theorem NoPhrase.append {a b : List Ev} (ha : NoPhrase a) (hb : NoPhrase b) : NoPhrase (a ++ b) := by
  intro ws h
  rcases List.mem_append.1 h with h | h
  · exact ha ws h
  · exact hb ws h

theorem last_append {texts : List Bytes → List Bytes} {a b : List Ev} (ha : NoPhrase a) (hb : PhraseLast texts b) :
    PhraseLast texts (a ++ b) := by
  intro pre ws post e
  rcases List.append_eq_append_iff.1 e with ⟨c, rfl, h2⟩ | ⟨c, rfl, h2⟩
  · exact hb _ _ _ h2
  · cases c with
    | nil => exact hb [] ws post (by simpa using h2.symm)
    | cons x c =>
      rw [List.cons_append, List.cons.injEq] at h2
      exact absurd (by rw [h2.1]; simp) (ha ws)

theorem adds_mono {α : Type} {x : ProgV α} {P Q : List Ev → Prop} (h : Adds x P) (hpq : ∀ es, P es → Q es) : Adds x Q := by
  intro st
  obtain ⟨es, h1, h2⟩ := h st
  exact ⟨es, h1, hpq _ h2⟩

theorem adds_bind {α β : Type} {x : ProgV α} {f : α → ProgV β} {Q : List Ev → Prop}
    (hx : Adds x NoPhrase) (hf : ∀ a, Adds (f a) Q) (h0 : ∀ es, NoPhrase es → Q es)
    (h1 : ∀ a b, NoPhrase a → Q b → Q (a ++ b)) : Adds (x >>= f) Q := by
  intro st
  rw [bindV_run]
  obtain ⟨es, e1, e2⟩ := hx st
  cases h : x st with
  | mk o s =>
    rw [h] at e1
    cases o with
    | ok a =>
      obtain ⟨es', e3, e4⟩ := hf a s
      exact ⟨es ++ es', by dsimp only; rw [e3]; dsimp only at e1; rw [e1, List.append_assoc], h1 _ _ e2 e4⟩
    | _ => exact ⟨es, e1, h0 _ e2⟩

theorem last_bind {α β : Type} {texts : List Bytes → List Bytes} {x : ProgV α} {f : α → ProgV β}
    (hx : Adds x NoPhrase) (hf : ∀ a, Adds (f a) (PhraseLast texts)) : Adds (x >>= f) (PhraseLast texts) :=
  adds_bind hx hf (fun _ h => h.last) (fun _ _ => last_append)

theorem no_bind {α β : Type} {x : ProgV α} {f : α → ProgV β}
    (hx : Adds x NoPhrase) (hf : ∀ a, Adds (f a) NoPhrase) : Adds (x >>= f) NoPhrase :=
  adds_bind hx hf (fun _ h => h) (fun _ _ => .append)

theorem no_event {e : Ev} (h : ∀ ws, e ≠ .act (.showPhrase ws)) : Adds (event e) NoPhrase :=
  fun _ => ⟨[e], rfl, fun ws hm => h ws (List.mem_singleton.1 hm).symm⟩

theorem no_eprint (t : Bytes) : Adds (eprint t) NoPhrase := no_event (by simp)

theorem no_eprints (ts : List Bytes) : Adds (eprints ts) NoPhrase :=
  fun _ => ⟨ts.map .err, rfl, fun ws hm => by simp at hm⟩

theorem no_pure {α : Type} (a : α) : Adds (pure a : ProgV α) NoPhrase :=
  fun st => ⟨[], (List.append_nil _).symm, fun _ h => by cases h⟩

theorem no_quiet {α : Type} {y : Prog α} (h : Quiet y) : Adds (silent y) NoPhrase :=
  fun st => ⟨[], by show st.events ++ _ = _; rw [h]; rfl, fun _ h => by cases h⟩

theorem no_printKey (a : Bytes) : Adds (printKeyV a) NoPhrase := by
  refine no_bind (no_eprint _) fun _ => no_bind ?_ fun _ => no_eprint _
  intro st
  exact ⟨_, rfl, fun ws hm => by simp [printKey, emit] at hm⟩

theorem no_save (env : Env) (ws : List Bytes) (p : Bytes) : Adds (silent (save env ws p)) NoPhrase := by
  intro st
  refine ⟨_, rfl, ?_⟩
  intro ws' hm
  have hs : (save env ws p ⟨st.prompts, st.rnd, []⟩).2.acts = (saveMnemonic env.fs env.save ws p).1 := by
    by_cases h : (saveMnemonic env.fs env.save ws p).2 = .ok ()
    · rw [save_ok h]; rfl
    · rw [(save_fails h _).1]; rfl
  rw [hs] at hm
  obtain ⟨a, ha, e⟩ := List.mem_map.1 hm
  cases e
  unfold saveMnemonic at ha
  dsimp only at ha
  split at ha
  · cases ha
  · split at ha
    · cases ha
    · split at ha
      · cases ha
      · split at ha
        · simp only [List.mem_cons, reduceCtorEq, false_or] at ha
          obtain ⟨_, -, h⟩ := List.mem_map.1 ha
          cases h
        · simp at ha

theorem no_askPassword (p : Bytes) (c : Bool) : Adds (askPassword p c) NoPhrase :=
  no_bind (no_event (by simp)) fun _ => no_quiet (quiet_password c)

theorem no_ite {α : Type} {c : Prop} [Decidable c] {x y : ProgV α} {P : List Ev → Prop} (h : Adds x P) (h' : Adds y P) :
    Adds (if c then x else y) P := by
  split <;> assumption

theorem adds_opt {α : Type} {c : Prop} [Decidable c] {x z : ProgV α} {P : List Ev → Prop} (hx : Adds z P → Adds x P)
    (hz : Adds z P) : Adds (if c then x else z) P := by
  split
  · exact hx hz
  · exact hz

theorem passwordLoopV_no (C : Crypto) (dm : DecodedMnemonic) : ∀ ps, NoPhrase (passwordLoopV C dm ps).2.2 := by
  intro ps ws hm
  have h := (passwordLoopV_same C dm ps).2.2
  rw [List.filterMap_eq_nil_iff] at h
  exact absurd (h _ hm) (by simp [actOf])

theorem no_askSeed (C : Crypto) (dm : DecodedMnemonic) : Adds (askSeedV C dm) NoPhrase := by
  intro st
  unfold askSeedV
  split
  · exact ⟨_, rfl, passwordLoopV_no C dm _⟩
  · exact no_quiet (fun _ => rfl) st

theorem no_askWords (env : Env) (opts : InputFlags) : Adds (askWordsV env opts) NoPhrase :=
  no_bind (no_eprints _) fun _ => no_event (by simp)

theorem no_decode (L : WordList) (C : Crypto) (env : Env) (opts : InputFlags) (v : Bool) :
    Adds (decodeMnemonicFromInputV L C env opts v) NoPhrase := by
  unfold decodeMnemonicFromInputV
  refine adds_opt (fun h => no_bind (no_askWords env opts) fun _ => h) ?_
  refine no_bind (no_quiet (quiet_lift _)) fun ws => ?_
  refine no_bind (no_quiet (quiet_lift _)) fun dm => ?_
  refine adds_opt (fun h => no_bind (no_eprint _) fun _ => no_bind (no_eprints _) fun _ =>
    no_bind (no_eprint _) fun _ => h) ?_
  exact no_bind (no_askSeed C dm) fun _ => no_pure _

/-- generate shows the phrase last. -/
theorem generate_last (F : Fmt) (L : WordList) (C : Crypto) (env : Env) (opts : GenerateOptions) (v : Bool)
    {texts : List Bytes → List Bytes} (h : ∀ ws, Adds (printMnemonicV env ws) (PhraseLast texts)) :
    Adds (generateAndPrintKeyV F L C env opts v) (PhraseLast texts) := by
  unfold generateAndPrintKeyV
  refine last_bind (no_quiet (quiet_lift _)) fun ttl => ?_
  refine last_bind (no_quiet (quiet_lift _)) fun ms => ?_
  refine adds_opt (fun h => last_bind (no_eprint _) fun _ => h) ?_
  refine last_bind (no_quiet (quiet_seedOf _ _)) fun seed => ?_
  refine last_bind (no_quiet (quiet_lift _)) fun mnk => ?_
  refine last_bind (no_ite (no_askPassword _ _) (no_pure _)) fun pw => ?_
  refine last_bind (no_quiet (quiet_exportKey _ _ _ _ _)) fun key => ?_
  refine last_bind (no_ite (no_bind (no_askPassword _ _) fun _ => no_quiet (quiet_random _))
    (no_quiet (quiet_lift _))) fun ws => ?_
  refine adds_opt (fun h => last_bind (no_save _ _ _) fun _ => h) ?_
  refine adds_opt (fun h => last_bind (no_eprint _) fun _ => last_bind (no_eprints _) fun _ =>
    last_bind (no_eprint _) fun _ => h) ?_
  refine last_bind (no_printKey _) fun _ => ?_
  exact no_ite (h ws) (adds_mono (no_pure _) fun _ h => h.last)

theorem convert_last (L : WordList) (C : Crypto) (env : Env) (opts : ConvertOptions) (v : Bool)
    {texts : List Bytes → List Bytes} (h : ∀ ws, Adds (printMnemonicV env ws) (PhraseLast texts)) :
    Adds (decodeAndConvertPhraseV L C env opts v) (PhraseLast texts) := by
  unfold decodeAndConvertPhraseV
  refine last_bind (no_decode _ _ _ _ _) fun sd => ?_
  refine last_bind (no_ite (no_bind (no_askPassword _ _) fun _ => no_quiet (quiet_random _))
    (no_quiet (quiet_lift _))) fun ws => ?_
  exact no_ite (h ws) (adds_mono (no_save _ _ _) fun _ h => h.last)

end Verif.Proofs
