import Verif.Props.Concurrent
import Verif.Spec.Liveness

/-!
# Lemmas for C83: what the prompts of a command must have returned, counting the moves of a schedule
-/

namespace Verif.Proofs

open Verif.Model Verif.Model.Cli Verif.Spec Verif.Props

/-! ## A failed prompt ends a command -/

def AllOk (rs : List (Res Bytes)) : Prop := ∀ r ∈ rs, ∃ q, r = .ok q

/-- While a program waits for a prompt, all prompts so far gave a password. -/
def WaitsClean {α : Type} (x : Prog α) : Prop := ∀ st c, (x st).1 = .waits c → AllOk st.prompts

/-- The prompts that a program has used when it ends well gave a password. -/
def OkClean {α : Type} (x : Prog α) : Prop := ∀ st a st1, x st = (.ok a, st1) →
  ∃ used, st.prompts = used ++ st1.prompts ∧ AllOk used

theorem allOk_nil : AllOk [] := by intro r h; cases h

theorem AllOk.append {a b : List (Res Bytes)} (ha : AllOk a) (hb : AllOk b) : AllOk (a ++ b) := by
  intro r hr
  rcases List.mem_append.1 hr with h | h
  · exact ha r h
  · exact hb r h

theorem NeverAsks.waitsClean {α : Type} {x : Prog α} (h : NeverAsks x) : WaitsClean x :=
  fun st c hc => absurd hc (h st c)

theorem waitsClean_bind {α β : Type} {x : Prog α} {f : α → Prog β} (h1 : OkClean x) (h2 : WaitsClean x)
    (h3 : ∀ a, WaitsClean (f a)) : WaitsClean (x >>= f) := by
  intro st c hc
  rcases bind_waits hc with h | ⟨a, st1, h, -, h'⟩
  · exact h2 st c h.1
  · obtain ⟨used, e, hu⟩ := h1 _ _ _ h
    rw [e]
    exact hu.append (h3 a st1 c h')

theorem okClean_bind {α β : Type} {x : Prog α} {f : α → Prog β} (h1 : OkClean x) (h2 : ∀ a, OkClean (f a)) :
    OkClean (x >>= f) := by
  intro st b st2 h
  rcases bind_run x f st with ⟨a, st1, h3, e⟩ | ⟨o, st1, h3, -, o', e, hfail⟩
  · rw [e] at h
    obtain ⟨u1, e1, k1⟩ := h1 _ _ _ h3
    obtain ⟨u2, e2, k2⟩ := h2 _ _ _ _ h
    exact ⟨u1 ++ u2, by rw [e1, e2, List.append_assoc], k1.append k2⟩
  · rw [e] at h
    cases h
    exact absurd rfl (hfail _)

theorem okClean_lift {α : Type} (r : Res α) : OkClean (lift r) := by
  intro st a st1 h
  obtain ⟨rfl, h2⟩ := lift_run h
  have := h2 a rfl
  subst this
  exact ⟨[], rfl, allOk_nil⟩

theorem okClean_pure {α : Type} (a : α) : OkClean (pure a : Prog α) := by
  intro st b st1 h
  cases h
  exact ⟨[], rfl, allOk_nil⟩

theorem okClean_random {α : Type} (f : Bytes → Res (α × Bytes)) : OkClean (random f) := by
  intro st a st1 h
  unfold random at h
  split at h <;> cases h
  exact ⟨[], rfl, allOk_nil⟩

theorem okClean_password (b : Bool) : OkClean (userInputPassword b) := by
  intro st a st1 h
  unfold userInputPassword at h
  split at h <;> cases h
  rename_i hp
  exact ⟨[.ok a], hp, fun r hr => ⟨a, List.mem_singleton.1 hr⟩⟩

theorem waitsClean_password (b : Bool) : WaitsClean (userInputPassword b) := by
  intro st c h
  unfold userInputPassword at h
  split at h <;> cases h
  rename_i hp
  rw [hp]
  exact allOk_nil

theorem okClean_seedOf (env : Env) (u : Bytes) : OkClean (seedOf env u) := by
  unfold seedOf
  split
  · exact okClean_lift _
  · exact okClean_random _

theorem okClean_keyPassword (b : Bool) : OkClean (keyPassword b) := by
  unfold keyPassword
  split
  · exact okClean_password _
  · exact okClean_pure _

theorem waitsClean_keyPassword (b : Bool) : WaitsClean (keyPassword b) := by
  unfold keyPassword
  split
  · exact waitsClean_password _
  · exact (neverAsks_pure _).waitsClean

theorem okClean_exportKey (C : Crypto) (mnk : Mnemonikey) (m s : Bool) (p : Bytes) : OkClean (exportKey C mnk m s p) := by
  unfold exportKey
  split <;> exact okClean_random _

theorem passwordLoop_clean (C : Crypto) (dm : DecodedMnemonic) : ∀ (ps : List (Res Bytes)),
    (∀ c, (passwordLoop C dm ps).1 = .waits c → AllOk ps) ∧
    ∀ s rest, passwordLoop C dm ps = (.ok s, rest) → ∃ used, ps = used ++ rest ∧ AllOk used
  | [] => ⟨fun _ _ => allOk_nil, fun _ _ h => by cases h⟩
  | .err _ :: _ => ⟨fun _ h => (by cases h), fun _ _ h => (by cases h)⟩
  | .panic _ :: _ => ⟨fun _ h => (by cases h), fun _ _ h => (by cases h)⟩
  | .ok p :: ps => by
    obtain ⟨h1, h2⟩ := passwordLoop_clean C dm ps
    have hp : AllOk [.ok p] := fun r hr => ⟨p, List.mem_singleton.1 hr⟩
    rw [passwordLoop]
    split
    · refine ⟨fun c h => hp.append (h1 c h), fun s rest h => ?_⟩
      obtain ⟨used, e, hu⟩ := h2 s rest h
      exact ⟨.ok p :: used, by rw [e]; rfl, hp.append hu⟩
    · exact ⟨fun _ h => (by cases h), fun _ _ h => (by cases h)⟩
    · exact ⟨fun _ h => (by cases h), fun _ _ h => (by cases h)⟩
    · refine ⟨fun _ h => (by cases h), fun s rest h => ?_⟩
      cases h
      exact ⟨[.ok p], rfl, hp⟩

theorem okClean_askSeed (C : Crypto) (dm : DecodedMnemonic) : OkClean (askSeed C dm) := by
  intro st a st1 h
  unfold askSeed at h
  rw [Prod.mk.injEq] at h
  obtain ⟨h1, rfl⟩ := h
  unfold seedLoop at h1 ⊢
  by_cases he : dm.encrypted = true
  · rw [if_pos he] at h1 ⊢
    exact (passwordLoop_clean C dm st.prompts).2 a _ (Prod.ext h1 rfl)
  · rw [if_neg he] at h1 ⊢
    refine ⟨[], ?_, allOk_nil⟩
    split <;> rfl

theorem waitsClean_askSeed (C : Crypto) (dm : DecodedMnemonic) : WaitsClean (askSeed C dm) := by
  intro st c h
  unfold askSeed seedLoop at h
  by_cases he : dm.encrypted = true
  · simp only [if_pos he] at h
    exact (passwordLoop_clean C dm st.prompts).1 c h
  · simp only [if_neg he] at h
    split at h <;> cases h

theorem okClean_decode (L : WordList) (C : Crypto) (env : Env) (opts : InputFlags) :
    OkClean (decodeMnemonicFromInput L C env opts) :=
  okClean_bind (okClean_lift _) fun _ => okClean_bind (okClean_lift _) fun dm =>
    okClean_bind (okClean_askSeed C dm) fun _ => okClean_pure _

theorem waitsClean_decode (L : WordList) (C : Crypto) (env : Env) (opts : InputFlags) :
    WaitsClean (decodeMnemonicFromInput L C env opts) :=
  waitsClean_bind (okClean_lift _) (neverAsks_lift _).waitsClean fun _ =>
    waitsClean_bind (okClean_lift _) (neverAsks_lift _).waitsClean fun dm =>
      waitsClean_bind (okClean_askSeed C dm) (waitsClean_askSeed C dm) fun _ => (neverAsks_pure _).waitsClean

theorem generate_clean (L : WordList) (C : Crypto) (env : Env) (opts : GenerateOptions) :
    WaitsClean (generateAndPrintKey L C env opts) := by
  unfold generateAndPrintKey
  refine waitsClean_bind (okClean_lift _) (neverAsks_lift _).waitsClean fun ttl => ?_
  refine waitsClean_bind (okClean_lift _) (neverAsks_lift _).waitsClean fun ms => ?_
  obtain ⟨master, subkeys⟩ := ms
  dsimp only
  refine waitsClean_bind (okClean_seedOf _ _) (neverAsks_seedOf _ _).waitsClean fun seed => ?_
  refine waitsClean_bind (okClean_lift _) (neverAsks_lift _).waitsClean fun mnk => ?_
  refine waitsClean_bind (okClean_keyPassword _) (waitsClean_keyPassword _) fun pw => ?_
  refine waitsClean_bind (okClean_exportKey _ _ _ _ _) (neverAsks_exportKey _ _ _ _ _).waitsClean fun key => ?_
  refine waitsClean_bind ?_ ?_ fun words => (neverAsks_generateEnd env opts.outputWordFile key words).waitsClean
  · split
    · exact okClean_bind (okClean_password true) fun p => okClean_random _
    · exact okClean_lift _
  · split
    · exact waitsClean_bind (okClean_password true) (waitsClean_password true) fun p => (neverAsks_random _).waitsClean
    · exact (neverAsks_lift _).waitsClean

theorem recover_clean (L : WordList) (C : Crypto) (env : Env) (opts : RecoverOptions) :
    WaitsClean (recoverAndPrintKey L C env opts) := by
  unfold recoverAndPrintKey
  refine waitsClean_bind (okClean_lift _) (neverAsks_lift _).waitsClean fun ttl => ?_
  split
  · exact (neverAsks_lift _).waitsClean
  refine waitsClean_bind (okClean_lift _) (neverAsks_lift _).waitsClean fun ms => ?_
  obtain ⟨master, subkeys⟩ := ms
  dsimp only
  refine waitsClean_bind (okClean_decode _ _ _ _) (waitsClean_decode _ _ _ _) fun sd => ?_
  obtain ⟨seed, dm⟩ := sd
  dsimp only
  refine waitsClean_bind (okClean_lift _) (neverAsks_lift _).waitsClean fun mnk => ?_
  refine waitsClean_bind (okClean_keyPassword _) (waitsClean_keyPassword _) fun pw => ?_
  exact waitsClean_bind (okClean_exportKey _ _ _ _ _) (neverAsks_exportKey _ _ _ _ _).waitsClean
    fun key => (neverAsks_emit _).waitsClean

theorem convert_clean (L : WordList) (C : Crypto) (env : Env) (opts : ConvertOptions) :
    WaitsClean (decodeAndConvertPhrase L C env opts) := by
  unfold decodeAndConvertPhrase
  refine waitsClean_bind (okClean_decode _ _ _ _) (waitsClean_decode _ _ _ _) fun sd => ?_
  obtain ⟨seed, dm⟩ := sd
  dsimp only
  refine waitsClean_bind ?_ ?_ fun words => ?_
  · split
    · exact okClean_bind (okClean_password true) fun p => okClean_random _
    · exact okClean_lift _
  · split
    · exact waitsClean_bind (okClean_password true) (waitsClean_password true) fun p => (neverAsks_random _).waitsClean
    · exact (neverAsks_lift _).waitsClean
  · split
    · exact (neverAsks_printMnemonic _ _).waitsClean
    · exact (neverAsks_save _ _ _).waitsClean

/-! ## Counting moves -/

def inside : Reader → Nat
  | .reading _ => 1
  | .confirming _ _ => 1
  | _ => 0

def stage : Restorer → Nat
  | .absent => 0
  | .waiting => 0
  | .woken => 1
  | .printed => 2
  | .done => 3

/-- The moves the program itself has made in a call, with its beginning -/
def weight (p : Prompt) : Nat :=
  1 + p.typed.length + inside p.reader + p.returned.isSome.toNat + p.cancelled.toNat + stage p.restorer

def owns (m : ProcMove) : Nat := (ownMove m).toNat

def lines (m : ProcMove) : Nat := (lineMove m).toNat

/-- With the line `q` typed whenever there is a prompt, how many more lines are needed -/
def need (q : Bytes) (p : Prompt) : Nat :=
  match p.reader with
  | .start => if p.confirm then 2 else 1
  | .reading _ => if p.confirm then 2 else 1
  | .confirmStart q' => if q' = q then 1 else 3
  | .confirming q' _ => if q' = q then 1 else 3
  | .sending _ => 0
  | .done => 0

structure Live (p : Prompt) : Prop where
  error : p.reader = .done → p.returned = none → p.errChan ≠ none
  confirm : ∀ q, (p.reader = .confirmStart q ∨ ∃ e, p.reader = .confirming q e) → p.confirm = true

/-- What is true of a call if nobody presses ctrl-C -/
structure Calm (p : Prompt) : Prop where
  ctx : p.ctxDone = true → p.cancelled = true
  cancelled : p.cancelled = true → p.returned ≠ none
  reader : p.returned ≠ none → p.reader = .done
  error : p.errChan ≠ none → p.reader = .done
  old : p.oldState = true
  first : ∀ e, p.reader = .reading e → e = true
  second : ∀ q e, p.reader = .confirming q e → e = true

/-- What one move does to the counts -/
structure MoveCount (p p' : Prompt) (k : Nat) (m : Move) : Prop where
  weight : weight p' = weight p + owns (.at k m)
  typed : p'.typed.length = p.typed.length + lines (.at k m)
  live : Live p → Live p'
  need : ∀ q, q ≠ [] → Live p → (∀ r, m = .line r → r = .ok q) → need q p' + lines (.at k m) = need q p

set_option linter.unnecessarySeqFocus false in
set_option maxHeartbeats 1000000 in
theorem move_count {p p' : Prompt} {e e' : Bool} {n n' k : Nat} {m : Move}
    (h : p.move e n m = some (p', e', n')) : MoveCount p p' k m := by
  obtain ⟨confirm, oldState, ctxDone, reader, restorer, errChan, returned, cancelled, typed⟩ := p
  cases m <;> simp only [Prompt.move] at h
  case line r =>
    cases reader <;> cases r <;> simp only [reduceCtorEq, Option.some.injEq, Prod.mk.injEq] at h <;>
      obtain ⟨rfl, rfl, rfl⟩ := h
    · rename_i l
      refine ⟨?_, ?_, ?_, ?_⟩
      · cases l <;> cases confirm <;> simp [weight, afterFirst, inside, owns, ownMove] <;> omega
      · simp [lines, lineMove]
      · rintro ⟨h1, h2⟩
        cases l <;> cases confirm <;> constructor <;> simp [afterFirst]
      · rintro q hq - hr
        cases hr _ rfl
        cases l with
        | nil => exact absurd rfl hq
        | cons x q => cases confirm <;> simp [need, afterFirst, lines, lineMove]
    · refine ⟨?_, ?_, ?_, ?_⟩
      · simp [weight, inside, owns, ownMove]; omega
      · simp [lines, lineMove]
      · rintro ⟨h1, h2⟩; constructor <;> simp
      · rintro q hq - hr
        cases hr _ rfl
    · rename_i q0 s0 l
      refine ⟨?_, ?_, ?_, ?_⟩
      · unfold afterSecond
        split <;> simp [weight, inside, owns, ownMove] <;> omega
      · simp [lines, lineMove]
      · rintro ⟨h1, h2⟩
        unfold afterSecond
        split <;> constructor <;> simp
      · rintro q hq ⟨-, h2⟩ hr
        cases hr _ rfl
        have hc := h2 q0 (.inr ⟨s0, rfl⟩)
        dsimp only at hc
        subst hc
        unfold afterSecond
        by_cases hqq : q0 = l
        · simp [hqq, need, lines, lineMove]
        · simp [hqq, need, lines, lineMove]
    · refine ⟨?_, ?_, ?_, ?_⟩
      · simp [weight, inside, owns, ownMove]; omega
      · simp [lines, lineMove]
      · rintro ⟨h1, h2⟩; constructor <;> simp
      · rintro q hq - hr
        cases hr _ rfl
  case interrupt =>
    simp only [Option.some.injEq, Prod.mk.injEq] at h
    obtain ⟨rfl, rfl, rfl⟩ := h
    exact ⟨by simp [weight, owns, ownMove], by simp [lines, lineMove], fun ⟨h1, h2⟩ => ⟨h1, h2⟩,
      fun q _ _ _ => by simp [need, lines, lineMove]⟩
  case enterRead =>
    cases reader <;> simp only [reduceCtorEq, Option.some.injEq, Prod.mk.injEq] at h <;>
      obtain ⟨rfl, rfl, rfl⟩ := h
    · exact ⟨by simp [weight, owns, ownMove, inside]; omega, by simp [lines, lineMove],
        fun ⟨h1, h2⟩ => ⟨by simp, by simp⟩, fun q _ _ _ => by simp [need, lines, lineMove]⟩
    · refine ⟨by simp [weight, owns, ownMove, inside]; omega, by simp [lines, lineMove],
        fun ⟨h1, h2⟩ => ⟨by simp, ?_⟩, fun q _ _ _ => by simp [need, lines, lineMove]⟩
      intro q _
      exact h2 _ (.inl rfl)
  case receive =>
    cases returned <;> cases reader <;> simp only [reduceCtorEq, Option.some.injEq, Prod.mk.injEq] at h <;>
      obtain ⟨rfl, rfl, rfl⟩ := h
    exact ⟨by simp [weight, owns, ownMove, inside]; omega, by simp [lines, lineMove],
      fun ⟨h1, h2⟩ => ⟨by simp, by simp⟩, fun q _ _ _ => by simp [need, lines, lineMove]⟩
  case receiveErr =>
    cases returned <;> cases errChan <;> simp only [reduceCtorEq, Option.some.injEq, Prod.mk.injEq] at h <;>
      obtain ⟨rfl, rfl, rfl⟩ := h
    exact ⟨by simp [weight, owns, ownMove]; omega, by simp [lines, lineMove],
      fun ⟨h1, h2⟩ => ⟨by simp, h2⟩, fun q _ _ _ => by simp [need, lines, lineMove]⟩
  case receiveDone =>
    cases returned <;> cases ctxDone <;> simp only [reduceCtorEq, Option.some.injEq, Prod.mk.injEq] at h <;>
      obtain ⟨rfl, rfl, rfl⟩ := h
    exact ⟨by simp [weight, owns, ownMove]; omega, by simp [lines, lineMove],
      fun ⟨h1, h2⟩ => ⟨by simp, h2⟩, fun q _ _ _ => by simp [need, lines, lineMove]⟩
  case cancel =>
    cases returned <;> cases cancelled <;> simp only [reduceCtorEq, Option.some.injEq, Prod.mk.injEq] at h <;>
      obtain ⟨rfl, rfl, rfl⟩ := h
    exact ⟨by simp [weight, owns, ownMove]; omega, by simp [lines, lineMove],
      fun ⟨h1, h2⟩ => ⟨h1, h2⟩, fun q _ _ _ => by simp [need, lines, lineMove]⟩
  case wake =>
    cases restorer <;> cases ctxDone <;> simp only [reduceCtorEq, Option.some.injEq, Prod.mk.injEq] at h <;>
      obtain ⟨rfl, rfl, rfl⟩ := h
    exact ⟨by simp [weight, owns, ownMove, stage], by simp [lines, lineMove],
      fun ⟨h1, h2⟩ => ⟨h1, h2⟩, fun q _ _ _ => by simp [need, lines, lineMove]⟩
  case print =>
    cases restorer <;> simp only [reduceCtorEq, Option.some.injEq, Prod.mk.injEq] at h <;>
      obtain ⟨rfl, rfl, rfl⟩ := h
    exact ⟨by simp [weight, owns, ownMove, stage], by simp [lines, lineMove],
      fun ⟨h1, h2⟩ => ⟨h1, h2⟩, fun q _ _ _ => by simp [need, lines, lineMove]⟩
  case restore =>
    cases restorer <;> simp only [reduceCtorEq, Option.some.injEq, Prod.mk.injEq] at h <;>
      obtain ⟨rfl, rfl, rfl⟩ := h
    exact ⟨by simp [weight, owns, ownMove, stage], by simp [lines, lineMove],
      fun ⟨h1, h2⟩ => ⟨h1, h2⟩, fun q _ _ _ => by simp [need, lines, lineMove]⟩

theorem live_begin (confirm echo : Bool) : Live (Prompt.begin confirm echo) :=
  ⟨by simp [Prompt.begin], by simp [Prompt.begin]⟩

theorem live_refused (confirm echo : Bool) (e : Err) : Live (Prompt.refused confirm echo e) :=
  ⟨by simp [Prompt.refused], by simp [Prompt.refused]⟩

set_option linter.unnecessarySeqFocus false in
/-- One move without ctrl-C; a reader only goes into ReadPassword while echo is on. -/
theorem calm_move {p p' : Prompt} {e e' : Bool} {n n' : Nat} {m : Move} (h : Calm p)
    (hm : p.move e n m = some (p', e', n')) (hi : m ≠ .interrupt) (he : m = .enterRead → e = true) :
    Calm p' ∧ ((e = true ∨ inside p.reader = 1) → e' = true ∨ inside p'.reader = 1) ∧
      (p.reader = .done → p'.reader = .done) := by
  obtain ⟨h1, h2, h3, h7, h4, h5, h6⟩ := h
  obtain ⟨confirm, oldState, ctxDone, reader, restorer, errChan, returned, cancelled, typed⟩ := p
  dsimp only at h1 h2 h3 h4 h5 h6 h7
  subst h4
  cases m <;> simp only [Prompt.move] at hm
  case line r =>
    have hret : inside reader = 1 → returned = none := by
      intro hin
      by_contra hc
      rw [h3 hc] at hin
      cases hin
    cases reader <;> cases r <;> simp only [reduceCtorEq, Option.some.injEq, Prod.mk.injEq] at hm <;>
      obtain ⟨rfl, rfl, rfl⟩ := hm
    · rename_i l
      have := h5 _ rfl
      have hr := hret rfl
      subst this hr
      refine ⟨⟨h1, h2, by simp, fun h => (by cases h7 h), rfl, ?_, ?_⟩, by simp, by simp⟩ <;>
        (dsimp only; cases l <;> cases confirm <;> simp [afterFirst])
    · have := h5 _ rfl
      have hr := hret rfl
      subst this hr
      exact ⟨⟨h1, h2, by simp, fun _ => rfl, rfl, by simp, by simp⟩, by simp, by simp⟩
    · have := h6 _ _ rfl
      have hr := hret rfl
      subst this hr
      refine ⟨⟨h1, h2, by simp, fun h => (by cases h7 h), rfl, ?_, ?_⟩, by simp, by simp⟩ <;>
        (dsimp only; unfold afterSecond; split <;> simp)
    · have := h6 _ _ rfl
      have hr := hret rfl
      subst this hr
      exact ⟨⟨h1, h2, by simp, fun _ => rfl, rfl, by simp, by simp⟩, by simp, by simp⟩
  case interrupt => exact absurd rfl hi
  case enterRead =>
    have := he rfl
    subst this
    cases reader <;> simp only [reduceCtorEq, Option.some.injEq, Prod.mk.injEq] at hm <;>
      obtain ⟨rfl, rfl, rfl⟩ := hm
    · exact ⟨⟨h1, h2, fun h => (by cases h3 h), fun h => (by cases h7 h), rfl, by simp, by simp⟩, by simp [inside], by simp⟩
    · exact ⟨⟨h1, h2, fun h => (by cases h3 h), fun h => (by cases h7 h), rfl, by simp, by simp⟩, by simp [inside], by simp⟩
  case receive =>
    cases returned <;> cases reader <;> simp only [reduceCtorEq, Option.some.injEq, Prod.mk.injEq] at hm <;>
      obtain ⟨rfl, rfl, rfl⟩ := hm
    exact ⟨⟨h1, by simp, by simp, by simp, rfl, by simp, by simp⟩, by simp [inside], by simp⟩
  case receiveErr =>
    cases returned <;> cases errChan <;> simp only [reduceCtorEq, Option.some.injEq, Prod.mk.injEq] at hm <;>
      obtain ⟨rfl, rfl, rfl⟩ := hm
    exact ⟨⟨h1, by simp, fun _ => h7 (by simp), by simp, rfl, h5, h6⟩, by simp, by simp⟩
  case receiveDone =>
    cases returned <;> cases ctxDone <;> simp only [reduceCtorEq, Option.some.injEq, Prod.mk.injEq] at hm
    exact absurd rfl (h2 (h1 rfl))
  case cancel =>
    cases returned <;> cases cancelled <;> simp only [reduceCtorEq, Option.some.injEq, Prod.mk.injEq] at hm <;>
      obtain ⟨rfl, rfl, rfl⟩ := hm
    exact ⟨⟨by simp, by simp, h3, h7, rfl, h5, h6⟩, by simp, by simp⟩
  case wake =>
    cases restorer <;> cases ctxDone <;> simp only [reduceCtorEq, Option.some.injEq, Prod.mk.injEq] at hm <;>
      obtain ⟨rfl, rfl, rfl⟩ := hm
    exact ⟨⟨h1, h2, h3, h7, rfl, h5, h6⟩, by simp, by simp⟩
  case print =>
    cases restorer <;> simp only [reduceCtorEq, Option.some.injEq, Prod.mk.injEq] at hm <;>
      obtain ⟨rfl, rfl, rfl⟩ := hm
    exact ⟨⟨h1, h2, h3, h7, rfl, h5, h6⟩, by simp, by simp⟩
  case restore =>
    cases restorer <;> simp only [reduceCtorEq, Option.some.injEq, Prod.mk.injEq] at hm <;>
      obtain ⟨rfl, rfl, rfl⟩ := hm
    exact ⟨⟨h1, h2, h3, h7, rfl, h5, h6⟩, by simp, by simp⟩

/-! ## The process -/

/-- The kinds of moves -/
theorem proc_move_cases {P : Prog Unit} {rnd : Bytes} {s s' : Proc} {m : ProcMove}
    (h : s.move P rnd m = some s') :
    (m = .act ∧ s'.sys = s.sys ∧ s'.done = s.done + 1) ∨
    (m = .begin ∧ s'.done = s.done ∧ s.sys.prompts.all (·.cancelled) = true ∧
      ∃ c, s'.sys = { s.sys with prompts := s.sys.prompts ++ [Prompt.begin c s.sys.echo] }) ∨
    (∃ c er, m = .refused er ∧ s'.done = s.done ∧ s.sys.prompts.all (·.cancelled) = true ∧
      s'.sys = { s.sys with prompts := s.sys.prompts ++ [Prompt.refused c s.sys.echo er] }) ∨
    ∃ k x p p' a b e n, m = .at k x ∧ s'.done = s.done ∧ a.length = k ∧ s.sys.prompts = a ++ p :: b ∧
      p.move s.sys.echo s.sys.newlines x = some (p', e, n) ∧ s'.sys = ⟨e, n, a ++ p' :: b⟩ := by
  cases m with
  | act =>
    simp only [Proc.move] at h
    split at h
    · split at h
      · cases h
      · cases h; exact .inl ⟨rfl, rfl, rfl⟩
    · cases h
  | begin =>
    simp only [Proc.move] at h
    split at h
    · split at h
      · rw [Option.map_eq_some_iff] at h
        obtain ⟨sys, h1, rfl⟩ := h
        simp only [Sys.move] at h1
        split at h1
        · rename_i hall
          cases h1
          exact .inr (.inl ⟨rfl, rfl, hall, _, rfl⟩)
        · cases h1
      · cases h
    · cases h
  | refused er =>
    simp only [Proc.move] at h
    split at h
    · split at h
      · rw [Option.map_eq_some_iff] at h
        obtain ⟨sys, h1, rfl⟩ := h
        simp only [Sys.move] at h1
        split at h1
        · rename_i hall
          cases h1
          exact .inr (.inr (.inl ⟨_, er, rfl, rfl, hall, rfl⟩))
        · cases h1
      · cases h
    · cases h
  | «at» k x =>
    simp only [Proc.move] at h
    split at h
    · cases h
    rw [Option.map_eq_some_iff] at h
    obtain ⟨sys, h1, rfl⟩ := h
    simp only [Sys.move] at h1
    split at h1
    · cases h1
    rename_i p hp
    split at h1
    · cases h1
    split at h1
    · cases h1
    rename_i p' e n hm
    cases h1
    obtain ⟨a, b, h2, rfl⟩ := List.getElem?_eq_some_iff.mp hp |> fun ⟨hl, he⟩ =>
      (⟨s.sys.prompts.take k, s.sys.prompts.drop (k + 1), by
        rw [← he, List.getElem_cons_drop, List.take_append_drop], by simp; omega⟩ :
        ∃ a b, s.sys.prompts = a ++ p :: b ∧ a.length = k)
    refine .inr (.inr (.inr ⟨_, x, p, p', a, b, e, n, rfl, rfl, rfl, h2, hm, ?_⟩))
    simp [h2]

theorem proc_run_cons {P : Prog Unit} {rnd : Bytes} {s s' : Proc} {m : ProcMove} {ms : List ProcMove}
    (h : s.run P rnd (m :: ms) = some s') : ∃ t, s.move P rnd m = some t ∧ t.run P rnd ms = some s' := by
  rw [Proc.run] at h
  split at h
  · cases h
  · exact ⟨_, by assumption, h⟩

/-- Own moves and lines, counted in the state -/
theorem run_count {P : Prog Unit} {rnd : Bytes} : ∀ (ms : List ProcMove) {s s' : Proc},
    s.run P rnd ms = some s' →
    (s.sys.prompts.map weight).sum + s.done + ms.countP ownMove ≤
      (s'.sys.prompts.map weight).sum + s'.done ∧
    (s'.sys.prompts.map (·.typed.length)).sum =
      (s.sys.prompts.map (·.typed.length)).sum + ms.countP lineMove
  | [], s, s', h => by cases h; simp
  | m :: ms, s, s', h => by
    obtain ⟨t, hm, hr⟩ := proc_run_cons h
    obtain ⟨h1, h2⟩ := run_count ms hr
    rw [h2, List.countP_cons, List.countP_cons]
    suffices hs : (s.sys.prompts.map weight).sum + s.done + (ms.countP ownMove + if ownMove m then 1 else 0) ≤
        (t.sys.prompts.map weight).sum + t.done + ms.countP ownMove ∧
        (t.sys.prompts.map (·.typed.length)).sum + ms.countP lineMove =
          (s.sys.prompts.map (·.typed.length)).sum + (ms.countP lineMove + if lineMove m then 1 else 0) from
      ⟨le_trans hs.1 h1, hs.2⟩
    rcases proc_move_cases hm with ⟨rfl, e1, e2⟩ | ⟨rfl, e1, -, c, e2⟩ | ⟨c, er, rfl, e1, -, e2⟩ |
      ⟨k, x, p, p', a, b, e, n, rfl, e1, -, e2, hx, e3⟩
    · rw [e1, e2]; simp [ownMove, lineMove]; omega
    · rw [e1, e2]; simp [ownMove, lineMove, weight, Prompt.begin, inside, stage]; omega
    · rw [e1, e2]; simp [ownMove, lineMove, weight, Prompt.refused, inside, stage]; omega
    · have hc := move_count (k := k) hx
      have hw := hc.weight
      have ht := hc.typed
      unfold owns at hw
      unfold lines at ht
      rw [e1, e2, e3]
      simp only [List.map_append, List.map_cons, List.sum_append, List.sum_cons]
      rw [hw, ht]
      constructor
      · cases ownMove (.at k x)
        · simp
        · simp; omega
      · cases lineMove (.at k x)
        · simp
        · simp; omega

theorem live_run {P : Prog Unit} {rnd : Bytes} : ∀ (ms : List ProcMove) {s s' : Proc},
    s.run P rnd ms = some s' → (∀ p ∈ s.sys.prompts, Live p) → ∀ p ∈ s'.sys.prompts, Live p
  | [], s, s', h, hl => by cases h; exact hl
  | m :: ms, s, s', h, hl => by
    obtain ⟨t, hm, hr⟩ := proc_run_cons h
    refine live_run ms hr ?_
    rcases proc_move_cases hm with ⟨rfl, e1, -⟩ | ⟨rfl, -, -, c, e1⟩ | ⟨c, er, rfl, -, -, e1⟩ |
      ⟨k, x, p, p', a, b, e, n, rfl, -, -, e2, hx, e1⟩
    · rw [e1]; exact hl
    · rw [e1]
      intro p hp
      rcases List.mem_append.1 hp with hp | hp
      · exact hl p hp
      · rw [List.mem_singleton.1 hp]; exact live_begin _ _
    · rw [e1]
      intro p hp
      rcases List.mem_append.1 hp with hp | hp
      · exact hl p hp
      · rw [List.mem_singleton.1 hp]; exact live_refused _ _ _
    · rw [e1]
      rw [e2] at hl
      intro y hy
      simp only [List.mem_append, List.mem_cons] at hy hl
      rcases hy with hy | rfl | hy
      · exact hl y (.inl hy)
      · exact (move_count (k := k) hx).live (hl p (.inr (.inl rfl)))
      · exact hl y (.inr (.inr hy))

/-- A call whose deferred cancel has run has returned. -/
theorem over_move {p p' : Prompt} {e e' : Bool} {n n' : Nat} {m : Move} (hm : p.move e n m = some (p', e', n'))
    (h : p.cancelled = true → p.returned ≠ none) : p'.cancelled = true → p'.returned ≠ none := by
  unfold Prompt.move at hm
  cases m <;> dsimp only at hm
  all_goals first
    | (split at hm <;> first
        | (cases hm; done)
        | (cases hm; intro hc hn; simp_all))
    | (cases hm; exact h)

theorem over_run {P : Prog Unit} {rnd : Bytes} : ∀ (ms : List ProcMove) {s s' : Proc},
    s.run P rnd ms = some s' → (∀ p ∈ s.sys.prompts, p.cancelled = true → p.returned ≠ none) →
    ∀ p ∈ s'.sys.prompts, p.cancelled = true → p.returned ≠ none
  | [], s, s', h, hl => by cases h; exact hl
  | m :: ms, s, s', h, hl => by
    obtain ⟨t, hm, hr⟩ := proc_run_cons h
    refine over_run ms hr ?_
    rcases proc_move_cases hm with ⟨rfl, e1, -⟩ | ⟨rfl, -, -, c, e1⟩ | ⟨c, er, rfl, -, -, e1⟩ |
      ⟨k, x, p, p', a, b, e, n, rfl, -, -, e2, hx, e1⟩
    · rw [e1]; exact hl
    · rw [e1]
      intro p hp
      rcases List.mem_append.1 hp with hp | hp
      · exact hl p hp
      · rw [List.mem_singleton.1 hp]; intro hc; cases hc
    · rw [e1]
      intro p hp
      rcases List.mem_append.1 hp with hp | hp
      · exact hl p hp
      · rw [List.mem_singleton.1 hp]; intro _ hn; cases hn
    · rw [e1]
      rw [e2] at hl
      intro y hy
      simp only [List.mem_append, List.mem_cons] at hy hl
      rcases hy with hy | rfl | hy
      · exact hl y (.inl hy)
      · exact over_move hx (hl p (.inr (.inl rfl)))
      · exact hl y (.inr (.inr hy))

/-- If nobody presses ctrl-C: only the last call may be unfinished, and echo is off only while its reader
is in ReadPassword. -/
structure CalmSys (s : Sys) : Prop where
  calm : ∀ p ∈ s.prompts, Calm p
  last : ∀ p ∈ s.prompts.dropLast, p.cancelled = true
  echo : s.echo = true ∨ ∃ p ∈ s.prompts, inside p.reader = 1

theorem calm_over {s : Sys} (h : CalmSys s) (hall : s.prompts.all (·.cancelled) = true) :
    s.echo = true ∧ ∀ p ∈ s.prompts, p.reader = .done := by
  have hd : ∀ p ∈ s.prompts, p.reader = .done := by
    intro p hp
    have hc := h.calm p hp
    exact hc.reader (hc.cancelled (by simpa using List.all_eq_true.1 hall p hp))
  refine ⟨?_, hd⟩
  rcases h.echo with h | ⟨p, hp, hi⟩
  · exact h
  · rw [hd p hp] at hi; cases hi

theorem calm_run {P : Prog Unit} {rnd : Bytes} : ∀ (ms : List ProcMove) {s s' : Proc},
    s.run P rnd ms = some s' → (∀ k, .at k .interrupt ∉ ms) → CalmSys s.sys → CalmSys s'.sys
  | [], s, s', h, _, hl => by cases h; exact hl
  | m :: ms, s, s', h, hi, hl => by
    obtain ⟨t, hm, hr⟩ := proc_run_cons h
    refine calm_run ms hr (fun k hk => hi k (List.mem_cons_of_mem _ hk)) ?_
    rcases proc_move_cases hm with ⟨rfl, e1, -⟩ | ⟨rfl, -, hall, c, e1⟩ | ⟨c, er, rfl, -, hall, e1⟩ |
      ⟨k, x, p, p', a, b, e, n, rfl, -, -, e2, hx, e1⟩
    · rw [e1]; exact hl
    · obtain ⟨hecho, -⟩ := calm_over hl hall
      rw [e1, hecho]
      refine ⟨?_, ?_, .inl hecho⟩
      · intro p hp
        rcases List.mem_append.1 hp with hp | hp
        · exact hl.calm p hp
        · rw [List.mem_singleton.1 hp]
          constructor <;> simp [Prompt.begin]
      · intro p hp
        dsimp only at hp
        rw [List.dropLast_concat] at hp
        simpa using List.all_eq_true.1 hall p hp
    · obtain ⟨hecho, -⟩ := calm_over hl hall
      rw [e1, hecho]
      refine ⟨?_, ?_, .inl hecho⟩
      · intro p hp
        rcases List.mem_append.1 hp with hp | hp
        · exact hl.calm p hp
        · rw [List.mem_singleton.1 hp]
          constructor <;> simp [Prompt.refused]
      · intro p hp
        dsimp only at hp
        rw [List.dropLast_concat] at hp
        simpa using List.all_eq_true.1 hall p hp
    · -- the others
      have hpm : p ∈ s.sys.prompts := by rw [e2]; simp
      have hb : p.reader ≠ .done → b = [] := by
        intro hne
        by_contra hc
        have := hl.last p (by rw [e2, List.dropLast_append_of_ne_nil (by simp), List.dropLast_cons_of_ne_nil hc]; simp)
        exact hne ((hl.calm p hpm).reader ((hl.calm p hpm).cancelled this))
      have ha : ∀ y ∈ a, y.reader = .done := by
        intro y hy
        obtain ⟨a1, a2, rfl⟩ := List.append_of_mem hy
        have hym : y ∈ s.sys.prompts := by rw [e2]; simp
        have := hl.last y (by rw [e2, List.dropLast_append_of_ne_nil (by simp)]; simp)
        exact (hl.calm y hym).reader ((hl.calm y hym).cancelled this)
      have hothers : p.reader ≠ .done → s.sys.echo = true ∨ inside p.reader = 1 := by
        intro hne
        rcases hl.echo with h | ⟨y, hy, hin⟩
        · exact .inl h
        · rw [e2, hb hne] at hy
          simp only [List.mem_append, List.mem_cons, List.not_mem_nil, or_false] at hy
          rcases hy with hy | rfl
          · rw [ha y hy] at hin; cases hin
          · exact .inr hin
      have hcm := calm_move (hl.calm p hpm) hx (by rintro rfl; exact hi k (by simp)) (by
        rintro rfl
        have hne : p.reader ≠ .done ∧ inside p.reader ≠ 1 := by
          simp only [Prompt.move] at hx
          split at hx
          · rename_i hr; rw [hr]; exact ⟨by simp, by simp [inside]⟩
          · rename_i hr; rw [hr]; exact ⟨by simp, by simp [inside]⟩
          · cases hx
        exact (hothers hne.1).resolve_right hne.2)
      obtain ⟨hc1, hc2, hc3⟩ := hcm
      have hold := (move_facts hx).old
      rw [e1]
      refine ⟨?_, ?_, ?_⟩
      · intro y hy
        simp only [List.mem_append, List.mem_cons] at hy
        rcases hy with hy | rfl | hy
        · exact hl.calm y (by rw [e2]; simp [hy])
        · exact hc1
        · exact hl.calm y (by rw [e2]; simp [hy])
      · intro y hy
        dsimp only at hy
        have hl' := hl.last
        rw [e2] at hl'
        rw [List.dropLast_append_of_ne_nil (by simp)] at hy hl'
        by_cases hbe : b = []
        · subst hbe
          exact hl' y (by simpa using hy)
        · rw [List.dropLast_cons_of_ne_nil hbe] at hy hl'
          simp only [List.mem_append, List.mem_cons] at hy hl'
          rcases hy with hy | rfl | hy
          · exact hl' y (.inl hy)
          · have hpc := hl' p (.inr (.inl rfl))
            exact (hold hpc ((hl.calm p hpm).cancelled hpc)).1
          · exact hl' y (.inr (.inr hy))
      · dsimp only
        by_cases hd : p.reader = .done
        · rcases hl.echo with h | ⟨y, hy, hin⟩
          · rcases hc2 (.inl h) with h | h
            · exact .inl h
            · exact .inr ⟨p', by simp, h⟩
          · right
            rw [e2] at hy
            simp only [List.mem_append, List.mem_cons] at hy
            rcases hy with hy | rfl | hy
            · exact ⟨y, by simp [hy], hin⟩
            · rw [hd] at hin; cases hin
            · exact ⟨y, by simp [hy], hin⟩
        · rcases hc2 (hothers hd) with h | h
          · exact .inl h
          · exact .inr ⟨p', by simp, h⟩

end Verif.Proofs
