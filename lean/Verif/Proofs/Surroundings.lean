import Verif.Spec.Surroundings
import Verif.Proofs.KeySet
import Verif.Proofs.Parallel

/-! # Proofs about what a run takes from its surroundings -/

namespace Verif.Proofs

open Verif.Model Verif.Model.Cli Verif.Spec

theorem new_second {now now' : Int} (h : SameSecond now now') (C : Crypto) (seed : Seed) (o : Option KeyOptions) :
    new C seed now o = new C seed now' o := by
  obtain ⟨h1, h2⟩ := h
  have hM : maxCreationTime = (1672531200 + 2 ^ 31 - 1) * 10 ^ 9 := by decide +kernel
  have hE : epochStart = 1672531200 * 10 ^ 9 := rfl
  have a : now > maxCreationTime ↔ now' > maxCreationTime := by
    rw [hM]
    by_cases hl : now / 10 ^ 9 = 1672531200 + 2 ^ 31 - 1
    · have := h2 hl
      omega
    · omega
  have b : now < epochStart ↔ now' < epochStart := by rw [hE]; omega
  unfold new
  refine congrArg (Res.bind (eraCheck seed.era)) (funext fun _ => ?_)
  dsimp only
  split
  · rfl
  · by_cases ha : now > maxCreationTime
    · rw [if_pos ha, if_pos (a.1 ha)]
    · rw [if_neg ha, if_neg (fun x => ha (a.2 x))]
      by_cases hb : now < epochStart
      · rw [if_pos hb, if_pos (b.1 hb)]
      · rw [if_neg hb, if_neg (fun x => hb (b.2 x))]
        have e : durDiv (timeSub now epochStart) epochIncrement = durDiv (timeSub now' epochStart) epochIncrement := by
          have ha' := fun x => ha (a.2 x)
          have hb' := fun x => hb (b.2 x)
          rw [hM] at ha ha'
          rw [hE] at hb hb'
          have t : ∀ x : Int, ¬ x > (1672531200 + 2 ^ 31 - 1) * 10 ^ 9 → ¬ x < 1672531200 * 10 ^ 9 →
              durDiv (timeSub x epochStart) epochIncrement = x / 10 ^ 9 - 1672531200 := by
            intro x hx hy
            have : timeSub x epochStart = x - 1672531200 * 10 ^ 9 := by unfold timeSub; rw [hE]; omega
            rw [this]
            unfold durDiv
            rw [Int.tdiv_eq_ediv_of_nonneg (by omega), show epochIncrement = 10 ^ 9 from rfl]
            omega
          rw [t now ha hb, t now' ha' hb', h1]
        rw [e]

section
variable {env env' : Env}

theorem seedOf_same {u : Bytes} (h1 : u = str "-" → env.stdin = env'.stdin)
    (h2 : u ≠ [] → u ≠ str "-" → env.fs.read u = env'.fs.read u) (os : OsText) :
    seedOf env u = seedOf env' u ∧ seedOfE os env u = seedOfE os env' u := by
  unfold seedOf seedOfE
  by_cases hu : u = []
  · simp only [hu, ne_eq, not_true_eq_false, if_false, and_self]
  · simp only [ne_eq, hu, not_false_eq_true, if_true]
    by_cases hd : u = str "-"
    · simp only [if_pos hd, h1 hd, and_self]
    · simp only [if_neg hd, h2 hu hd, and_self]

theorem save_same {o : Bytes} (h1 : env.save = env'.save) (h2 : (env.fs.dir o).isSome ↔ (env'.fs.dir o).isSome) (os : OsText) :
    (∀ words, save env words o = save env' words o) ∧ ∀ words, saveE os env words o = saveE os env' words o := by
  have : ∀ words, saveMnemonic env.fs env.save words o = saveMnemonic env'.fs env'.save words o := by
    intro words
    unfold saveMnemonic
    rw [h1, Bool.eq_iff_iff.2 h2]
  unfold save saveE
  simp only [this, implies_true, and_self]

theorem printMnemonic_same (h : env.columns = env'.columns) :
    printMnemonic env = printMnemonic env' ∧ printMnemonicV env = printMnemonicV env' := by
  unfold printMnemonic printMnemonicV
  rw [h]
  exact ⟨rfl, rfl⟩

theorem generate_same {opts : GenerateOptions} (hc : env.columns = env'.columns) (ha : env.armor = env'.armor)
    (ht : SameSecond env.now env'.now) (h1 : opts.unsafeEntropy = str "-" → env.stdin = env'.stdin)
    (h2 : opts.unsafeEntropy ≠ [] → opts.unsafeEntropy ≠ str "-" →
      env.fs.read opts.unsafeEntropy = env'.fs.read opts.unsafeEntropy)
    (h3 : opts.outputWordFile ≠ [] → env.save = env'.save ∧
      ((env.fs.dir opts.outputWordFile).isSome ↔ (env'.fs.dir opts.outputWordFile).isSome))
    (F : Fmt) (os : OsText) (L : WordList) (C : Crypto) (verbose : Bool) :
    generateAndPrintKeyV F L C env opts verbose = generateAndPrintKeyV F L C env' opts verbose ∧
      generateAndPrintKeyE F os L C env opts = generateAndPrintKeyE F os L C env' opts := by
  obtain ⟨s1, s2⟩ := seedOf_same h1 h2 os
  obtain ⟨p1, p2⟩ := printMnemonic_same hc
  have n : ∀ seed o, new C seed env.now o = new C seed env'.now o := fun seed o => new_second ht C seed o
  have nE : ∀ seed o, newE C seed env.now o = newE C seed env'.now o := fun seed o => by unfold newE; rw [n]
  unfold generateAndPrintKeyV generateAndPrintKeyE
  rw [s1, s2, p1, p2, ha]
  by_cases ho : opts.outputWordFile = []
  · simp only [n, nE, ho, ne_eq, not_true_eq_false, if_false, and_self]
  · obtain ⟨e1, e2⟩ := save_same (h3 ho).1 (h3 ho).2 os
    simp only [n, nE, e1, e2, and_self]

theorem input_same {input : InputFlags} (h1 : input.inputWordFile = [] → env.stdin = env'.stdin ∧
      (input.simple = false → env.rawError = env'.rawError))
    (h2 : input.inputWordFile ≠ [] → env.fs.read input.inputWordFile = env'.fs.read input.inputWordFile)
    (os : OsText) (L : WordList) (C : Crypto) (verbose : Bool) :
    decodeMnemonicFromInputV L C env input verbose = decodeMnemonicFromInputV L C env' input verbose ∧
      decodeMnemonicFromInputE os L C env input = decodeMnemonicFromInputE os L C env' input := by
  have w : inputWords L env input = inputWords L env' input ∧ inputWordsE os L env input = inputWordsE os L env' input ∧
      (input.inputWordFile = [] → askWordsV env input = askWordsV env' input) := by
    by_cases hi : input.inputWordFile = []
    · obtain ⟨e1, e2⟩ := h1 hi
      have b : byLine env input = byLine env' input ∧ rawWarnings env input = rawWarnings env' input := by
        unfold byLine rawWarnings
        cases hs : input.simple with
        | true => exact ⟨rfl, rfl⟩
        | false => rw [e2 hs]; exact ⟨rfl, rfl⟩
      unfold inputWords inputWordsE askWordsV
      rw [b.1, b.2, e1]
      simp only [hi, ne_eq, not_true_eq_false, if_false, implies_true, and_self]
    · unfold inputWords inputWordsE
      rw [h2 hi]
      simp only [hi, ne_eq, not_false_eq_true, if_true, false_imp_iff, and_self]
  obtain ⟨w1, w2, w3⟩ := w
  unfold decodeMnemonicFromInputV decodeMnemonicFromInputE
  rw [w1, w2]
  by_cases hi : input.inputWordFile = []
  · rw [w3 hi]
    exact ⟨rfl, rfl⟩
  · simp only [if_neg hi, and_self]

end

end Verif.Proofs
