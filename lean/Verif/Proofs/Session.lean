import Verif.Proofs.CliConcurrent
import Verif.Proofs.Scanner
import Verif.Proofs.Words
import Verif.Props.Concurrent
import Verif.Props.Convert
import Verif.Spec.Session

/-! # Lemmas for C108 -/

namespace Verif.Proofs

open Verif.Model Verif.Model.Cli Verif.Spec Verif.Props

/-! ## Password prompts -/

theorem read_shorter : ∀ (bs : List (Option Byte)) (ret p : Bytes) (rest : List (Option Byte)),
    readPasswordLine ret bs = .password p rest → rest.length < bs.length
  | [], _, _, _, h => by cases h
  | none :: bs, ret, p, rest, h => by
    have := read_shorter bs ret p rest h
    rw [List.length_cons]; omega
  | some b :: bs, ret, p, rest, h => by
    rw [readPasswordLine] at h
    rw [List.length_cons]
    split at h
    · have := read_shorter bs _ _ _ h; omega
    · split at h
      · cases h; omega
      · split at h <;> · have := read_shorter bs _ _ _ h; omega

theorem passwordsRead_append {bs mid : List (Option Byte)} {ls ls' : List Bytes} {rest : List (Option Byte)}
    (h : PasswordsRead bs ls mid) (h' : PasswordsRead mid ls' rest) : PasswordsRead bs (ls ++ ls') rest := by
  induction h with
  | nil => exact h'
  | cons h1 _ ih => exact .cons h1 (ih h')

theorem passwordsRead_split {ls ls' : List Bytes} : ∀ {bs rest : List (Option Byte)}, PasswordsRead bs (ls ++ ls') rest →
    ∃ mid, PasswordsRead bs ls mid ∧ PasswordsRead mid ls' rest := by
  induction ls with
  | nil => exact fun h => ⟨_, .nil, h⟩
  | cons l ls ih =>
    intro bs rest h
    cases h with
    | cons h1 h2 =>
      obtain ⟨mid, h3, h4⟩ := ih h2
      exact ⟨mid, .cons h1 h3, h4⟩

/-- The lines before which something failed can be put in front. -/
theorem failed_append {confirm : Bool} {a b : List Bytes} (ha : Failed confirm a) (hb : Failed confirm b) :
    Failed confirm (a ++ b) := by
  induction hb with
  | nil => rwa [List.append_nil]
  | empty ls _ ih => rw [← List.append_assoc]; exact .empty _ ih
  | mismatch ls x y hc _ hx hxy ih => rw [← List.append_assoc]; exact .mismatch _ x y hc ih hx hxy

theorem accepted_append {confirm : Bool} {a ls : List Bytes} {p : Bytes} (ha : Failed confirm a)
    (h : Accepted confirm ls p) : Accepted confirm (a ++ ls) p := by
  obtain ⟨hp, before, hb, rfl⟩ := h
  exact ⟨hp, a ++ before, failed_append ha hb, by rw [List.append_assoc]⟩

theorem promptLoop_sound (confirm : Bool) : ∀ (n : Nat) (bs : List (Option Byte)) (p : Bytes) (rest : List (Option Byte)),
    promptLoop confirm n bs = some (p, rest) → ∃ ls, PasswordsRead bs ls rest ∧ Accepted confirm ls p := by
  intro n
  induction n with
  | zero => intro bs p rest h; cases h
  | succ n ih =>
    intro bs p rest h
    rw [promptLoop] at h
    cases hr : readPasswordLine [] bs with
    | waits => rw [hr] at h; cases h
    | password p1 bs1 =>
      rw [hr] at h
      dsimp only at h
      by_cases he : p1.length = 0
      · rw [if_pos he] at h
        obtain rfl : p1 = [] := List.length_eq_zero_iff.1 he
        obtain ⟨ls, h1, h2⟩ := ih _ _ _ h
        exact ⟨[] :: ls, .cons hr h1, accepted_append (.empty [] .nil) h2⟩
      · rw [if_neg he] at h
        have hne : p1 ≠ [] := fun e => he (by rw [e]; rfl)
        cases confirm with
        | false =>
          rw [if_neg (by decide), Option.some.injEq, Prod.mk.injEq] at h
          obtain ⟨rfl, rfl⟩ := h
          exact ⟨[p1], .cons hr .nil, hne, [], .nil, rfl⟩
        | true =>
          rw [if_pos rfl] at h
          cases hr2 : readPasswordLine [] bs1 with
          | waits => rw [hr2] at h; cases h
          | password p2 bs2 =>
            rw [hr2] at h
            dsimp only at h
            by_cases hq : p1 = p2
            · rw [if_pos hq, Option.some.injEq, Prod.mk.injEq] at h
              obtain ⟨rfl, rfl⟩ := h
              subst hq
              exact ⟨[p1, p1], .cons hr (.cons hr2 .nil), hne, [], .nil, rfl⟩
            · rw [if_neg hq] at h
              obtain ⟨ls, h1, h2⟩ := ih _ _ _ h
              exact ⟨p1 :: p2 :: ls, .cons hr (.cons hr2 h1), accepted_append (.mismatch [] p1 p2 rfl .nil hne hq) h2⟩

/-- Lines that fail, from the front -/
theorem failed_cases {confirm : Bool} {ls : List Bytes} (h : Failed confirm ls) : ls = [] ∨
    (∃ ls', ls = [] :: ls' ∧ Failed confirm ls') ∨
    ∃ a b ls', confirm = true ∧ a ≠ [] ∧ a ≠ b ∧ ls = a :: b :: ls' ∧ Failed confirm ls' := by
  induction h with
  | nil => exact .inl rfl
  | empty ls _ ih =>
    rcases ih with rfl | ⟨ls', rfl, h⟩ | ⟨a, b, ls', hc, ha, hab, rfl, h⟩
    · exact .inr (.inl ⟨[], rfl, .nil⟩)
    · exact .inr (.inl ⟨_, rfl, .empty _ h⟩)
    · exact .inr (.inr ⟨a, b, _, hc, ha, hab, rfl, .empty _ h⟩)
  | mismatch ls x y hc' _ hx hxy ih =>
    rcases ih with rfl | ⟨ls', rfl, h⟩ | ⟨a, b, ls', hc, ha, hab, rfl, h⟩
    · exact .inr (.inr ⟨x, y, [], hc', hx, hxy, rfl, .nil⟩)
    · exact .inr (.inl ⟨_, rfl, .mismatch _ x y hc' h hx hxy⟩)
    · exact .inr (.inr ⟨a, b, _, hc, ha, hab, rfl, .mismatch _ x y hc' h hx hxy⟩)

theorem promptLoop_complete (confirm : Bool) (p : Bytes) : ∀ (n : Nat) (bs : List (Option Byte)) (ls : List Bytes)
    (rest : List (Option Byte)), PasswordsRead bs ls rest → Accepted confirm ls p → bs.length < n →
    promptLoop confirm n bs = some (p, rest) := by
  intro n
  induction n with
  | zero => intro bs ls rest _ _ h; omega
  | succ n ih =>
    rintro bs ls rest hr ⟨hp, before, hb, rfl⟩ hn
    have h0 : p.length ≠ 0 := fun e => hp (List.length_eq_zero_iff.1 e)
    rw [promptLoop]
    rcases failed_cases hb with rfl | ⟨ls', rfl, h⟩ | ⟨a, b, ls', hc, ha, hab, rfl, h⟩
    · cases confirm with
      | false =>
        cases hr with
        | cons h1 h2 =>
          cases h2
          rw [h1]
          dsimp only
          rw [if_neg h0, if_neg (by decide)]
      | true =>
        cases hr with
        | cons h1 h2 =>
          cases h2 with
          | cons h2 h3 =>
            cases h3
            rw [h1]
            dsimp only
            rw [if_neg h0, if_pos rfl, h2]
            dsimp only
            rw [if_pos rfl]
    · rw [List.cons_append] at hr
      cases hr with
      | cons h1 h2 =>
        rw [h1]
        dsimp only
        rw [if_pos List.length_nil]
        have := read_shorter _ _ _ _ h1
        exact ih _ _ _ h2 ⟨hp, ls', h, rfl⟩ (by omega)
    · rw [List.cons_append, List.cons_append] at hr
      cases hr with
      | cons h1 h2 =>
        cases h2 with
        | cons h2 h3 =>
          rw [h1]
          dsimp only
          rw [if_neg (fun e => ha (List.length_eq_zero_iff.1 e)), if_pos hc, h2]
          dsimp only
          rw [if_neg hab]
          have := read_shorter _ _ _ _ h1
          have := read_shorter _ _ _ _ h2
          exact ih _ _ _ h3 ⟨hp, ls', h, rfl⟩ (by omega)

theorem promptLoop_iff (confirm : Bool) (bs : List (Option Byte)) (p : Bytes) (rest : List (Option Byte)) :
    promptLoop confirm (bs.length + 1) bs = some (p, rest) ↔ ∃ ls, PasswordsRead bs ls rest ∧ Accepted confirm ls p :=
  ⟨promptLoop_sound _ _ _ _ _, fun ⟨_, h1, h2⟩ => promptLoop_complete _ _ _ _ _ _ h1 h2 (by omega)⟩

theorem accepted_ne {confirm : Bool} {ls : List Bytes} {p : Bytes} (h : Accepted confirm ls p) : ls ≠ [] := by
  obtain ⟨-, before, -, rfl⟩ := h
  cases confirm <;> simp

theorem passwordsRead_le {bs rest : List (Option Byte)} {ls : List Bytes} (h : PasswordsRead bs ls rest) :
    rest.length + ls.length ≤ bs.length := by
  induction h with
  | nil => simp
  | cons h1 _ ih =>
    have := read_shorter _ _ _ _ h1
    rw [List.length_cons]
    omega

/-! ## The command goes on -/

theorem goOn_stop {P : Prog Unit} {rnd : Bytes} {ps : List Bytes} {o : Outcome Unit}
    (h : P.outcome (ps.map .ok) rnd = o) (hno : ∀ c, o ≠ .waits c) (n : Nat) (bs : List (Option Byte)) :
    goOn P rnd n ps bs = ⟨o, P.acts (ps.map .ok) rnd, bs⟩ := by
  cases n with
  | zero => rw [goOn, h]
  | succ n =>
    rw [goOn, h]
    cases o with
    | waits c => exact absurd rfl (hno c)
    | _ => rfl

theorem goOn_sound (P : Prog Unit) (rnd : Bytes) : ∀ (n : Nat) (ps : List Bytes) (bs : List (Option Byte)), bs.length < n →
    ∃ qs : List (List Bytes × Bytes),
      PasswordsRead bs (qs.flatMap Prod.fst) (goOn P rnd n ps bs).left ∧
      (∀ k q, qs[k]? = some q → ∃ c, P.outcome ((ps ++ (qs.take k).map Prod.snd).map .ok) rnd = .waits c ∧
        Accepted c q.1 q.2) ∧
      (goOn P rnd n ps bs).outcome = P.outcome ((ps ++ qs.map Prod.snd).map .ok) rnd ∧
      (goOn P rnd n ps bs).acts = P.acts ((ps ++ qs.map Prod.snd).map .ok) rnd ∧
      ∀ c, (goOn P rnd n ps bs).outcome = .waits c →
        ¬ ∃ ls p rest, PasswordsRead (goOn P rnd n ps bs).left ls rest ∧ Accepted c ls p := by
  intro n
  induction n with
  | zero => intro ps bs h; omega
  | succ n ih =>
    intro ps bs hn
    by_cases hw : ∃ c, P.outcome (ps.map .ok) rnd = .waits c
    · obtain ⟨c, hw⟩ := hw
      rw [goOn, hw]
      dsimp only
      cases hl : promptLoop c (bs.length + 1) bs with
      | none =>
        dsimp only
        refine ⟨[], .nil, by simp, by simpa using hw.symm, by simp, ?_⟩
        rintro c' hc' ⟨ls, p, rest, h1, h2⟩
        cases hc'
        have := (promptLoop_iff c bs p rest).2 ⟨ls, h1, h2⟩
        rw [hl] at this
        cases this
      | some r =>
        obtain ⟨p, bs'⟩ := r
        dsimp only
        obtain ⟨ls, h1, h2⟩ := (promptLoop_iff c bs p bs').1 hl
        have hle := passwordsRead_le h1
        have := List.length_pos_iff.2 (accepted_ne h2)
        obtain ⟨qs, g1, g2, g3, g4, g5⟩ := ih (ps ++ [p]) bs' (by omega)
        refine ⟨(ls, p) :: qs, ?_, ?_, ?_, ?_, g5⟩
        · rw [List.flatMap_cons]
          exact passwordsRead_append h1 g1
        · intro k q hk
          cases k with
          | zero =>
            cases hk
            exact ⟨c, by simpa using hw, h2⟩
          | succ k =>
            obtain ⟨c', h3, h4⟩ := g2 k q hk
            refine ⟨c', ?_, h4⟩
            rw [List.append_assoc] at h3
            exact h3
        · rw [g3, List.append_assoc]; rfl
        · rw [g4, List.append_assoc]; rfl
    · have hno : ∀ c, P.outcome (ps.map .ok) rnd ≠ .waits c := fun c h => hw ⟨c, h⟩
      rw [goOn_stop rfl hno]
      exact ⟨[], .nil, by simp, by simp, by simp, fun c h => absurd h (hno c)⟩

/-- The prompts are answered one after the other. -/
theorem goOn_all {P : Prog Unit} {rnd : Bytes} : ∀ (qs : List (Bool × List Bytes × Bytes)) (n : Nat) (ps : List Bytes)
    (bs left : List (Option Byte)), bs.length < n →
    (∀ k q, qs[k]? = some q → P.outcome ((ps ++ (qs.take k).map (·.2.2)).map .ok) rnd = .waits q.1) →
    (∀ q ∈ qs, Accepted q.1 q.2.1 q.2.2) → PasswordsRead bs (qs.flatMap (·.2.1)) left →
    (∀ c, P.outcome ((ps ++ qs.map (·.2.2)).map .ok) rnd ≠ .waits c) →
    goOn P rnd n ps bs = ⟨P.outcome ((ps ++ qs.map (·.2.2)).map .ok) rnd, P.acts ((ps ++ qs.map (·.2.2)).map .ok) rnd, left⟩
  | [], n, ps, bs, left, hn, _, _, hr, hno => by
    cases hr
    rw [List.map_nil, List.append_nil] at hno ⊢
    exact goOn_stop rfl hno n bs
  | q :: qs, n, ps, bs, left, hn, hw, ha, hr, hno => by
    obtain ⟨n, rfl⟩ : ∃ m, n = m + 1 := ⟨n - 1, by omega⟩
    rw [List.flatMap_cons] at hr
    obtain ⟨mid, h1, h2⟩ := passwordsRead_split hr
    have hq := ha q List.mem_cons_self
    have h0 := hw 0 q rfl
    rw [List.take_zero, List.map_nil, List.append_nil] at h0
    rw [goOn, h0]
    dsimp only
    rw [(promptLoop_iff q.1 bs q.2.2 mid).2 ⟨_, h1, hq⟩]
    dsimp only
    have hle := passwordsRead_le h1
    have := List.length_pos_iff.2 (accepted_ne hq)
    rw [goOn_all qs n (ps ++ [q.2.2]) mid left (by omega) (fun k q' hk => by
      have := hw (k + 1) q' hk
      rw [List.take_succ_cons, List.map_cons] at this
      rw [List.append_assoc]
      exact this) (fun q' h => ha q' (List.mem_cons_of_mem _ h)) h2 (by rw [List.append_assoc]; exact hno), List.append_assoc]
    rfl

/-! ## Words -/

theorem simpleScan_eq (L : WordList) : ∀ (n wordCount : Nat) (words : List Bytes) (s : Scanner), Inv s →
    (Scanner.text s).length < n → (simpleScan L n wordCount words s).1 = simpleLoop L wordCount words (scanLines (Scanner.text s)) := by
  intro n
  induction n with
  | zero => intro _ _ _ _ h; omega
  | succ n ih =>
    intro wc words s hi hn
    rcases scan_next splits_lines s.fuel s hi (by unfold Scanner.fuel; split <;> omega) with ⟨t, s', h1, h2, h3, h4⟩ | ⟨h1, h2⟩
    · rw [simpleScan_step L n wc words h1, h3, simpleLoop_step]
      rcases simpleStep L wc words t with ⟨wc', words'⟩ | r
      · exact ih wc' words' s' h2 (by omega)
      · rfl
    · rw [simpleScan, h2]
      rcases hs : s.scan splitLines s.fuel with ⟨o, s'⟩
      rw [hs] at h1
      dsimp only at h1
      subst h1
      rfl

theorem simplePrompted_fst (L : WordList) (input : List Bytes) :
    (simplePrompted L input).1 = userInputMnemonicSimple L (beforeEnd input) := by
  unfold simplePrompted userInputMnemonicSimple
  have := before_lt input
  exact simpleScan_eq L _ 1 [] _ (inv_new input) (by omega)

theorem keyLoop_used (L : WordList) : ∀ (k : Bytes) (s : WordState) (r : Res (List Bytes)) (left : Bytes),
    keyLoop L s k = (r, left) → ∃ used, k = used ++ left ∧ keyLoop L s used = (r, [])
  | [], s, r, left, h => by
    cases h
    exact ⟨[], rfl, rfl⟩
  | c :: k, s, r, left, h => by
    rw [keyLoop] at h
    cases hs : keyStep L s c with
    | next s' =>
      rw [hs] at h
      obtain ⟨used, h1, h2⟩ := keyLoop_used L k s' r left h
      exact ⟨c :: used, by rw [h1]; rfl, by rw [keyLoop, hs]; exact h2⟩
    | finished r' =>
      rw [hs] at h
      cases h
      exact ⟨[c], rfl, by rw [keyLoop, hs]⟩

theorem presses_front {word : Nat → Bytes} {offer : Bytes → Option Bytes} : ∀ {a b : Bytes} {s s' : Typing}, b ≠ [] →
    Presses word offer (a ++ b) s s' → ∃ s1, Presses word offer a s s1 ∧ ¬ s1.Done
  | [], b, s, s', hb, h => by
    cases h with
    | nil => exact absurd rfl hb
    | cons h1 _ _ => exact ⟨s, .nil, h1⟩
  | x :: a, b, s, s', hb, h => by
    cases h with
    | cons h1 h2 h3 =>
      obtain ⟨s1, h4, h5⟩ := presses_front hb h3
      exact ⟨s1, .cons h1 h2 h4, h5⟩

theorem keys_left {L : WordList} (hL : L.Lawful) {keys : Bytes} {s : Typing} (h : Presses L.word (offer L) keys .start s)
    (hd : s.Done) : keyLoop L .start keys = (.ok s.words, []) := by
  have hby : ByKeys L.word (offer L) keys (.words s.words) := .done (List.append_nil _).symm h hd
  have h1 : (keyLoop L .start keys).1 = .ok s.words := (keys_iff hL keys (.words _)).2 hby
  rcases hk : keyLoop L .start keys with ⟨r, left⟩
  rw [hk] at h1
  obtain rfl : r = .ok s.words := h1
  obtain ⟨used, h2, h3⟩ := keyLoop_used L _ _ _ _ hk
  by_cases hl : left = []
  · rw [hl]
  · exfalso
    rw [h2] at h
    obtain ⟨s1, h4, h5⟩ := presses_front hl h
    have e1 : userInputMnemonic L used = entryRes .ended := (keys_iff hL used .ended).2 (.ended h4 h5)
    have e2 : userInputMnemonic L used = .ok s.words := by unfold userInputMnemonic; rw [h3]
    rw [e1] at e2
    cases e2

/-! ## Prompts that are not reached do not matter -/

def Stable {α : Type} (x : Prog α) : Prop := ∀ (ps more : List (Res Bytes)) (rnd : Bytes) (acts : List Act),
  (∀ c, (x ⟨ps, rnd, acts⟩).1 ≠ .waits c) →
  x ⟨ps ++ more, rnd, acts⟩ = ((x ⟨ps, rnd, acts⟩).1, { (x ⟨ps, rnd, acts⟩).2 with prompts := (x ⟨ps, rnd, acts⟩).2.prompts ++ more })

theorem stable_bind {α β : Type} {x : Prog α} {f : α → Prog β} (hx : Stable x) (hf : ∀ a, Stable (f a)) :
    Stable (x >>= f) := by
  intro ps more rnd acts h
  rw [show (x >>= f) = Prog.bind x f from rfl] at h ⊢
  unfold Prog.bind at h ⊢
  have h1 := hx ps more rnd acts
  rcases hs : x ⟨ps, rnd, acts⟩ with ⟨o, ps1, rnd1, acts1⟩
  rw [hs] at h h1
  cases o with
  | ok a =>
    rw [h1 (fun c => nofun)]
    exact hf a ps1 more rnd1 acts1 h
  | waits c => exact absurd rfl (h c)
  | err e => rw [h1 (fun c => nofun)]
  | panic p => rw [h1 (fun c => nofun)]
  | loops => rw [h1 (fun c => nofun)]

theorem stable_lift {α : Type} (r : Res α) : Stable (lift r) := by
  intro ps more rnd acts _
  cases r <;> rfl

theorem stable_pure {α : Type} (a : α) : Stable (pure a : Prog α) := fun _ _ _ _ _ => rfl

theorem stable_random {α : Type} (f : Bytes → Res (α × Bytes)) : Stable (random f) := by
  intro ps more rnd acts _
  unfold random
  dsimp only
  rcases f rnd with ⟨a, r⟩ | e | p <;> rfl

theorem stable_emit (as : List Act) : Stable (emit as) := fun _ _ _ _ _ => rfl

theorem stable_printMnemonic (env : Env) (ws : List Bytes) : Stable (printMnemonic env ws) := by
  intro ps more rnd acts _
  unfold printMnemonic
  dsimp only
  rcases justifyTerminalWidth 19 env.columns 0 notice with _ | (_ | _ | _) <;> rfl

theorem stable_save (env : Env) (ws : List Bytes) (f : Bytes) : Stable (save env ws f) :=
  stable_bind (stable_emit _) fun _ => stable_lift _

theorem stable_password (b : Bool) : Stable (userInputPassword b) := by
  intro ps more rnd acts h
  rcases ps with _ | ⟨(_ | _ | _), ps⟩
  · exact absurd rfl (h b)
  all_goals rfl

theorem stable_keyPassword (b : Bool) : Stable (keyPassword b) := by
  unfold keyPassword
  split
  · exact stable_password true
  · exact stable_pure _

theorem stable_seedOf (env : Env) (u : Bytes) : Stable (seedOf env u) := by
  unfold seedOf
  split
  · exact stable_lift _
  · exact stable_random _

theorem stable_exportKey (C : Crypto) (mnk : Mnemonikey) (m s : Bool) (p : Bytes) : Stable (exportKey C mnk m s p) := by
  unfold exportKey
  split <;> exact stable_random _

theorem passwordLoop_more (C : Crypto) (dm : DecodedMnemonic) (more : List (Res Bytes)) : ∀ ps : List (Res Bytes),
    (∀ c, (passwordLoop C dm ps).1 ≠ .waits c) →
    passwordLoop C dm (ps ++ more) = ((passwordLoop C dm ps).1, (passwordLoop C dm ps).2 ++ more)
  | [], h => absurd rfl (h false)
  | .err _ :: _, _ => rfl
  | .panic _ :: _, _ => rfl
  | .ok p :: ps, h => by
    rw [List.cons_append]
    rw [passwordLoop] at h
    rw [passwordLoop, passwordLoop]
    split
    · next he =>
      rw [he] at h
      exact passwordLoop_more C dm more ps h
    · rfl
    · rfl
    · rfl

theorem stable_askSeed (C : Crypto) (dm : DecodedMnemonic) : Stable (askSeed C dm) := by
  intro ps more rnd acts h
  unfold askSeed seedLoop at h ⊢
  dsimp only at h ⊢
  by_cases he : dm.encrypted = true
  · rw [if_pos he] at h
    rw [if_pos he, if_pos he, passwordLoop_more C dm more ps h]
  · rw [if_neg he, if_neg he]
    rcases dm.decryptSeed C.toPhraseCrypto [] with s | e | p
    · rfl
    · cases e <;> rfl
    · rfl

theorem stable_decode (L : WordList) (C : Crypto) (env : Env) (opts : InputFlags) :
    Stable (decodeMnemonicFromInput L C env opts) :=
  stable_bind (stable_lift _) fun _ => stable_bind (stable_lift _) fun _ => stable_bind (stable_askSeed _ _) fun _ => stable_pure _

theorem stable_generateEnd (env : Env) (out key : Bytes) (ws : List Bytes) : Stable (generateEnd env out key ws) := by
  unfold generateEnd
  by_cases h : out = []
  · rw [if_neg (by simp [h]), if_pos h]
    exact stable_bind (stable_emit _) (fun _ => stable_printMnemonic _ _)
  · rw [if_pos h, if_neg h]
    exact stable_bind (stable_save _ _ _) (fun _ => stable_bind (stable_emit _) (fun _ => stable_pure _))

theorem stable_generate (L : WordList) (C : Crypto) (env : Env) (opts : GenerateOptions) :
    Stable (generateAndPrintKey L C env opts) := by
  unfold generateAndPrintKey
  refine stable_bind (stable_lift _) fun ttl => ?_
  refine stable_bind (stable_lift _) fun ⟨master, subkeys⟩ => ?_
  dsimp only
  refine stable_bind (stable_seedOf _ _) fun seed => ?_
  refine stable_bind (stable_lift _) fun mnk => ?_
  refine stable_bind (stable_keyPassword _) fun pw => ?_
  refine stable_bind (stable_exportKey _ _ _ _ _) fun key => ?_
  refine stable_bind ?_ fun words => stable_generateEnd env opts.outputWordFile key words
  split
  · exact stable_bind (stable_password true) fun p => stable_random _
  · exact stable_lift _

theorem stable_recover (L : WordList) (C : Crypto) (env : Env) (opts : RecoverOptions) :
    Stable (recoverAndPrintKey L C env opts) := by
  unfold recoverAndPrintKey
  refine stable_bind (stable_lift _) fun ttl => ?_
  split
  · exact stable_lift _
  refine stable_bind (stable_lift _) fun ⟨master, subkeys⟩ => ?_
  dsimp only
  refine stable_bind (stable_decode _ _ _ _) fun ⟨seed, dm⟩ => ?_
  refine stable_bind (stable_lift _) fun mnk => ?_
  refine stable_bind (stable_keyPassword _) fun pw => ?_
  exact stable_bind (stable_exportKey _ _ _ _ _) fun key => stable_emit _

theorem stable_convert (L : WordList) (C : Crypto) (env : Env) (opts : ConvertOptions) :
    Stable (decodeAndConvertPhrase L C env opts) := by
  unfold decodeAndConvertPhrase
  refine stable_bind (stable_decode _ _ _ _) fun ⟨seed, dm⟩ => ?_
  dsimp only
  refine stable_bind ?_ fun words => ?_
  · split
    · exact stable_bind (stable_password true) fun p => stable_random _
    · exact stable_lift _
  · split
    · exact stable_printMnemonic _ _
    · exact stable_save _ _ _

/-- A command that uses all answers waits before each of them. -/
theorem waits_before {P : Prog Unit} (hP : Stable P) {ps : List (Res Bytes)} {rnd : Bytes}
    (h : (P ⟨ps, rnd, []⟩).2.prompts = []) {k : Nat} (hk : k < ps.length) :
    ∃ c, P.outcome (ps.take k) rnd = .waits c := by
  by_contra hno
  have := hP (ps.take k) (ps.drop k) rnd [] (fun c hc => hno ⟨c, hc⟩)
  rw [List.take_append_drop] at this
  rw [this] at h
  dsimp only at h
  have hd := List.append_eq_nil_iff.1 h
  have := congrArg List.length hd.2
  rw [List.length_drop, List.length_nil] at this
  omega

/-- What recover asks for once is the password of the phrase. -/
theorem recover_asks_phrase {L : WordList} {C : Crypto} {env : Env} {opts : RecoverOptions} {st : St}
    (h : (recoverAndPrintKey L C env opts st).1 = .waits false) :
    (decodeMnemonicFromInput L C env opts.input st).1 = .waits false := by
  unfold recoverAndPrintKey at h
  rcases bind_waits h with ⟨h1, -⟩ | ⟨ttl, st1, h1, -, g1⟩
  · exact absurd h1 (neverAsks_lift _ _ _)
  clear h
  obtain ⟨rfl, -⟩ := lift_run h1
  split at g1
  · exact absurd g1 (neverAsks_lift _ _ _)
  rcases bind_waits g1 with ⟨h2, -⟩ | ⟨⟨master, subkeys⟩, st2, h2, -, h⟩
  · exact absurd h2 (neverAsks_lift _ _ _)
  clear g1
  obtain ⟨rfl, -⟩ := lift_run h2
  dsimp only at h
  rcases bind_waits h with ⟨h3, -⟩ | ⟨⟨s, dm⟩, st3, h3, -, h⟩
  · exact h3
  dsimp only at h
  rcases bind_waits h with ⟨h4, -⟩ | ⟨mnk, st4, -, -, h⟩
  · exact absurd h4 (neverAsks_lift _ _ _)
  rcases bind_waits h with ⟨h5, -⟩ | ⟨pw, st5, -, -, h⟩
  · exact absurd (asks_keyPassword _ _ _ h5) (by decide)
  exact absurd h (neverAsks_bind (neverAsks_exportKey _ _ _ _ _) (fun _ => neverAsks_emit _) _ _)

theorem convert_asks_phrase {L : WordList} {C : Crypto} {env : Env} {opts : ConvertOptions} {st : St}
    (h : (decodeAndConvertPhrase L C env opts st).1 = .waits false) :
    (decodeMnemonicFromInput L C env opts.input st).1 = .waits false := by
  unfold decodeAndConvertPhrase at h
  rcases bind_waits h with ⟨h3, -⟩ | ⟨⟨s, dm⟩, st3, h3, -, h⟩
  · exact h3
  dsimp only at h
  rcases bind_waits h with ⟨h4, -⟩ | ⟨words, st4, -, -, h⟩
  · split at h4
    · exact absurd (asks_bind (asks_password true) (fun _ => (neverAsks_random _).asks _) _ _ h4) (by decide)
    · exact absurd h4 (neverAsks_lift _ _ _)
  · split at h
    · exact absurd h (neverAsks_printMnemonic _ _ _ _)
    · exact absurd h (neverAsks_save _ _ _ _ _)

end Verif.Proofs
