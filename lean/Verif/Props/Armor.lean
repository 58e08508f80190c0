import Verif.Proofs.Armor
import Verif.Props.Request

/-!
# What readers take from standard output: C87
-/

namespace Verif.Props

open Verif.Model Verif.Model.Cli Verif.Proofs Verif.Spec Verif.Spec.OpenPGP Verif.Instances Verif.Armor

/-! ## C87 A reader of the output gets a whole key or none -/

theorem dearmor_of_framed {n : Nat} {out text : Bytes} (h : Framed n out text) : dearmor out = dearmor text := by
  obtain ⟨i, j, -, rfl⟩ := h
  exact dearmor_framed text i j

/-- A beginning of what is printed -/
theorem dearmor_begun {armor : Bytes → Bytes} (hA : ArmorLawful armor) {key text : Bytes}
    (h : text <+: armor key ++ [0x0A]) : dearmor text = none ∨ dearmor text = some key := by
  rcases List.prefix_concat_iff.mp (by simpa using h) with h | h
  · right
    rw [h, dearmor_end, hA.reads]
  · by_cases he : text = armor key
    · right
      rw [he, hA.reads]
    · exact .inl (hA.cut key text h he)

theorem run_stdout_take (bs : Bytes) (n : Nat) (w : World) :
    (w.run ((bs.map Act.stdout).take n)).stdout = w.stdout ++ bs.take n := by
  rw [← List.map_take, run_stdout]

/-- What the command alone has printed after some of its actions is a beginning of one armored export. -/
theorem alone_begun {L : WordList} (hL : L.Lawful) {C : Crypto} (hC : C.Lawful) (env : Env) (hwf : env.fs.Wf)
    (P : Prog Unit) (hP : IsCommand L C env P) (rs : List (Res Bytes)) (rnd : Bytes) (n : Nat) :
    ((atStart env.fs).run ((P.acts rs rnd).take n)).stdout = [] ∨ ∃ mnk key, IsExport C mnk key ∧
      ((atStart env.fs).run ((P.acts rs rnd).take n)).stdout <+: env.armor key ++ [0x0A] := by
  cases hP with
  | generate opts =>
    by_cases hw : opts.outputWordFile = []
    · unfold Prog.acts
      rcases generate_cases hL hC env opts ⟨rs, rnd, []⟩ with ⟨-, ha⟩ |
        ⟨mnk, o, master, keyPw, pw, key, words, st1, ha, g, e1⟩
      · rw [ha, List.take_nil]
        exact .inl rfl
      · rw [e1, hw, generateEnd_shown, ha]
        refine .inr ⟨mnk, key, isExport_of g.exported, ?_⟩
        dsimp only
        rw [List.nil_append, List.take_append, run_append, run_quiet _ (World.run _ _)]
        · rw [run_stdout_take]
          exact List.take_prefix _ _
        · rw [List.all_eq_true]
          intro a ha
          have := List.mem_of_mem_take ha
          rw [List.mem_singleton] at this
          subst this
          rfl
    · obtain ⟨-, -, h⟩ := c49_saved_first hL hC env hwf opts hw rs rnd n
      by_cases hs : ((atStart env.fs).run
          (((generateAndPrintKey L C env opts).acts rs rnd).take n)).stdout = []
      · exact .inl hs
      · obtain ⟨words, mnk, o, key, -, -, -, -, -, he, hp⟩ := h hs
        exact .inr ⟨mnk, key, he, hp⟩
  | recover opts =>
    unfold Prog.acts
    rcases recover_cases (L := L) (C := C) env opts ⟨rs, rnd, []⟩ with
      ⟨-, ha⟩ | ⟨ttl, master, subkeys, ws, dm, s, mnk, keyPw, key, -, -, -, -, -, -, -, he, -, ha⟩
    · rw [ha, List.take_nil]
      exact .inl rfl
    · rw [ha]
      refine .inr ⟨mnk, key, isExport_of he, ?_⟩
      dsimp only
      rw [List.nil_append, run_stdout_take]
      exact List.take_prefix _ _
  | convert opts => exact .inl (c56_no_file L C env opts rs rnd n).2

/-- However the goroutines are scheduled and wherever the process is killed: a reader of standard output finds
no key, or exactly the packets of one export; line feeds in between do not matter. -/
theorem c87_whole_or_nothing {L : WordList} (hL : L.Lawful) {C : Crypto} (hC : C.Lawful) (env : Env)
    (hA : ArmorLawful env.armor) (hwf : env.fs.Wf) (P : Prog Unit) (hP : IsCommand L C env P) (rnd : Bytes)
    (ms : List ProcMove) (s : Proc) (h : (Proc.start env.fs).run P rnd ms = some s) :
    dearmor s.world.stdout = none ∨
    ∃ mnk key, IsExport C mnk key ∧ dearmor s.world.stdout = some key := by
  obtain ⟨-, -, -, n, -, hf⟩ := c68_refines hL hC env P hP rnd ms s h
  rw [dearmor_of_framed hf]
  rcases alone_begun hL hC env hwf P hP s.sys.results rnd s.done with h | ⟨mnk, key, he, hp⟩
  · rw [h]
    exact .inl dearmor_nil
  · rcases dearmor_begun hA hp with h | h
    · exact .inl h
    · exact .inr ⟨mnk, key, he, h⟩

/-- A reader finds a key when generate and recover have succeeded, and none when a command has failed or
convert was run. -/
theorem c87_finished {L : WordList} (hL : L.Lawful) {C : Crypto} (hC : C.Lawful) (env : Env)
    (hA : ArmorLawful env.armor) (hwf : env.fs.Wf) (P : Prog Unit) (hP : IsCommand L C env P) (rnd : Bytes)
    (ms : List ProcMove) (s : Proc) (h : (Proc.start env.fs).run P rnd ms = some s) :
    (∀ e, s.Finished P rnd (.err e) → dearmor s.world.stdout = none) ∧
    (s.Finished P rnd (.ok ()) →
      (∃ opts, P = decodeAndConvertPhrase L C env opts) ∧ dearmor s.world.stdout = none ∨
      ∃ mnk key, IsExport C mnk key ∧ dearmor s.world.stdout = some key) := by
  have hlf : ∀ n, dearmor (List.replicate n 0x0A) = none := by
    intro n
    have := dearmor_framed [] n 0
    rw [List.append_nil, List.replicate_zero, List.append_nil] at this
    rw [this, dearmor_nil]
  refine ⟨fun e he => ?_, fun hok => ?_⟩
  · obtain ⟨n, -, hs⟩ := c68_failed hL hC env hwf P hP rnd ms s h e he
    rw [hs, hlf]
  · obtain ⟨n, -, h | ⟨mnk, key, hk, hf⟩⟩ := c68_succeeded hL hC env hwf P hP rnd ms s h hok
    · exact .inl ⟨h.1, by rw [h.2, hlf]⟩
    · exact .inr ⟨mnk, key, hk, by rw [dearmor_of_framed hf, dearmor_end, hA.reads]⟩

/-- generate, from what is asked for to what a reader gets, under every schedule: the packets contain exactly
the key asked for. The conditions are those of C70. -/
theorem c87_generate {L : WordList} (hL : L.Lawful) {C : Crypto} (hC : C.Lawful) (env : Env)
    (hA : ArmorLawful env.armor)
    (hwf : env.fs.Wf) (opts : GenerateOptions) {w : Wanted} {master : Prop}
    (hask : AsksFor opts.key 0 0 0 w master) (hu : w.userID.length < 2 ^ 32)
    (hnow : 1672531200 * 10 ^ 9 ≤ env.now) (hnow' : env.now ≤ (1672531200 + 2 ^ 31 - 1) * 10 ^ 9)
    {rnd e rnd' : Bytes} (hseed : SeedBytes env rnd opts.unsafeEntropy e rnd') (hrnd : 99 ≤ rnd'.length)
    {keyPw phrasePw : Option Bytes} (htyped : Typed opts.key.encryptKeys opts.encryptPhrase keyPw phrasePw)
    (hsave : opts.outputWordFile ≠ [] → env.fs.read opts.outputWordFile = none ∧
      env.save = ⟨false, false, none⟩)
    (hshow : opts.outputWordFile = [] → 17 ≤ env.columns) (ms : List ProcMove) (s : Proc)
    (h : (Proc.start env.fs).run (generateAndPrintKey L C env opts) rnd ms = some s)
    (hr : s.sys.results = keyPw.toList.map .ok ++ phrasePw.toList.map .ok)
    {o : Outcome Unit} (hend : s.Finished (generateAndPrintKey L C env opts) rnd o) :
    o = .ok () ∧ ∃ key, dearmor s.world.stdout = some key ∧
      Contains C key (keyPw.getD []) (valueOfBytes e) (env.now / 10 ^ 9).toNat w master True := by
  obtain ⟨hok, key, words, hout, hc, -⟩ := c70_generate hL hC env hwf opts hask hu hnow hnow' hseed hrnd htyped []
    hsave hshow
  rw [List.append_nil, ← hr] at hok hout
  obtain ⟨-, -, -, n, -, hf⟩ := c68_refines hL hC env _ (.generate opts) rnd ms s h
  obtain ⟨-, hd, ho, -⟩ := hend
  rw [hd, List.take_length, hout] at hf
  exact ⟨ho.symm.trans hok, key, by rw [dearmor_of_framed hf, dearmor_end, hA.reads], hc⟩

/-- recover, likewise. The conditions are those of C71. -/
theorem c87_recover {L : WordList} (hL : L.Lawful) {C : Crypto} (hC : C.Lawful) (env : Env)
    (hA : ArmorLawful env.armor)
    (opts : RecoverOptions) {w : Wanted} {master : Prop}
    (hask : AsksFor opts.key opts.encIndex opts.authIndex opts.sigIndex w master)
    (henc : opts.encIndex ≤ 65535) (hauth : opts.authIndex ≤ 65535) (hsig : opts.sigIndex ≤ 65535)
    (hu : w.userID.length < 2 ^ 32) {words : List Bytes} (hin : Gets L (offer L) env opts.input words)
    {phrasePw keyPw : Option Bytes} {seed offset : Nat}
    (hholds : Holds (indexOf L) C.toPhraseCrypto words phrasePw seed offset)
    (wrong : List Bytes) (hwrong : ∀ p ∈ wrong, WrongPassword L C words p)
    (hkey : keyPw.isSome = opts.key.encryptKeys)
    (hgood : ∀ p, keyPw = some p → p ≠ [] ∧ p.length ≤ 65011704)
    {rnd : Bytes} (hrnd : 96 ≤ rnd.length) (ms : List ProcMove) (s : Proc)
    (h : (Proc.start env.fs).run (recoverAndPrintKey L C env opts) rnd ms = some s)
    (hr : s.sys.results = wrong.map .ok ++ phrasePw.toList.map .ok ++ keyPw.toList.map .ok)
    {o : Outcome Unit} (hend : s.Finished (recoverAndPrintKey L C env opts) rnd o) :
    o = .ok () ∧ ∃ key, dearmor s.world.stdout = some key ∧
      Contains C key (keyPw.getD []) seed (1672531200 + offset) w master (opts.selfCert = true) := by
  obtain ⟨hok, key, hout, hc⟩ := c71_recover hL hC env opts hask henc hauth hsig hu hin hholds wrong hwrong hkey
    hgood [] hrnd
  rw [List.append_nil, ← hr] at hok hout
  obtain ⟨-, -, -, n, -, hf⟩ := c68_refines hL hC env _ (.recover opts) rnd ms s h
  obtain ⟨-, hd, ho, -⟩ := hend
  rw [hd, List.take_length, hout] at hf
  exact ⟨ho.symm.trans hok, key, by rw [dearmor_of_framed hf, dearmor_end, hA.reads], hc⟩

/-! ## examples -/

def armorEnv : Env := { sampleEnv with armor := goArmor }

/-- The contract can be met, by an armor that is not trivial. -/
example : ArmorLawful goArmor ∧ dearmor (goArmor (List.replicate 100 0xA5)) = some (List.replicate 100 0xA5) ∧
    dearmor ((goArmor (List.replicate 100 0xA5)).take 200) = none := by
  refine ⟨goArmor_lawful, goArmor_reads _, goArmor_cut _ _ (List.take_prefix _ _) ?_⟩
  decide +kernel

/-- An armor without its checksum or tail does not meet it. -/
example : ¬ ArmorLawful (fun data => beginPrivateKey ++ str "\n\n" ++ radix64Write data) := by
  intro h
  have := h.reads []
  revert this
  decide +kernel

/-- generate with an encrypted key: a schedule that ends, and what is read from its output. -/
example : ∃ ms s key, (Proc.start armorEnv.fs).run (generateAndPrintKey toyWordList toyCrypto armorEnv
      { key := sampleKeyFlags, outputWordFile := str "new", encryptPhrase := false, unsafeEntropy := [] })
      (List.replicate 115 7) ms = some s ∧ dearmor s.world.stdout = some key ∧
    Contains toyCrypto key (str "key password") (valueOfBytes (List.replicate 16 7)) 1700000000
      (sampleWanted 0 0) False True := by
  have hseed : SeedBytes armorEnv (List.replicate 115 7) [] (List.replicate 16 7) (List.replicate 99 7) :=
    .system rfl rfl
  have htyped : Typed true false (some (str "key password")) none :=
    ⟨rfl, rfl, by rintro p ⟨⟩; decide, by rintro p ⟨⟩⟩
  have hok := (c70_generate toyWordList_lawful toyCrypto_lawful armorEnv sampleFS_wf
    { key := sampleKeyFlags, outputWordFile := str "new", encryptPhrase := false, unsafeEntropy := [] }
    (sample_asks 0 0 0) (by decide) (by decide) (by decide) hseed (by decide) htyped []
    (fun _ => ⟨by decide +kernel, rfl⟩) (by decide)).1
  obtain ⟨ms, s, h, hend, hr, -⟩ := c68_realised armorEnv _ (.generate
    { key := sampleKeyFlags, outputWordFile := str "new", encryptPhrase := false, unsafeEntropy := [] })
    (List.replicate 115 7) [.ok (str "key password")] (by simp; decide) (by
      intro k hk
      have : k = 0 := by simp at hk; exact hk
      subst this
      exact ⟨true, by decide +kernel⟩) (.ok ()) hok (by simp)
  obtain ⟨-, key, hd, hc⟩ := c87_generate toyWordList_lawful toyCrypto_lawful armorEnv goArmor_lawful sampleFS_wf
    { key := sampleKeyFlags, outputWordFile := str "new", encryptPhrase := false, unsafeEntropy := [] }
    (sample_asks 0 0 0) (by decide) (by decide) (by decide) hseed (by decide) htyped
    (fun _ => ⟨by decide +kernel, rfl⟩) (by decide) ms s h hr hend
  exact ⟨ms, s, key, h, hd, hc⟩

end Verif.Props
