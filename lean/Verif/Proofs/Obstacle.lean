import Verif.Spec.Obstacle
import Verif.Proofs.Messages
import Verif.Props.Success

/-!
# How the steps of a command end

For each relation of `Verif.Spec.Obstacle` the step of the program that it describes.
-/

namespace Verif.Proofs

open Verif.Model Verif.Model.Cli Verif.Model.Pgp Verif.Spec Verif.Spec.OpenPGP Verif.Props

/-! ## Sequences -/

theorem bindE_ok {α β : Type} {x : ProgE α} {f : α → ProgE β} {st st' : StE} {a : α} (h : x st = (.ok a, st')) :
    (x >>= f) st = f a st' := by
  change ProgE.bind x f st = _
  unfold ProgE.bind
  rw [h]

theorem bindE_err {α β : Type} {x : ProgE α} {f : α → ProgE β} {st st' : StE} {e : GoErr}
    (h : x st = (.err e, st')) : ((x >>= f) st).1 = .err e := by
  change (ProgE.bind x f st).1 = _
  unfold ProgE.bind
  rw [h]

theorem bindE_waits {α β : Type} {x : ProgE α} {f : α → ProgE β} {st st' : StE} {c : Bool}
    (h : x st = (.waits c, st')) : ((x >>= f) st).1 = .waits c := by
  change (ProgE.bind x f st).1 = _
  unfold ProgE.bind
  rw [h]

theorem bindE_assoc {α β γ : Type} (x : ProgE α) (f : α → ProgE β) (g : β → ProgE γ) :
    x >>= f >>= g = x >>= fun a => f a >>= g := by
  funext st
  change ProgE.bind (ProgE.bind x f) g st = ProgE.bind x (fun a => ProgE.bind (f a) g) st
  unfold ProgE.bind
  rcases x st with ⟨o, st'⟩
  cases o <;> rfl

theorem plain_inv {α : Type} {x : ResE α} {a : α} (h : x.plain = .ok a) : x = .ok a := by
  cases x with
  | ok b => cases h; rfl
  | err e => cases h
  | panic p => cases h

/-! ## Options -/

theorem ends_duration {F : Fmt} {ttl : Bytes} {f : Int → ProgE Unit} {st : StE} {o : OutcomeE Unit}
    {next : Ending} (hf : ∀ d, ttlOf ttl = .ok d → ((f d st).1 = o ↔ next o)) :
    ((liftE (ttlOfE F ttl) >>= f) st).1 = o ↔ Duration F.quote ttl next o := by
  have e : incorrectUsage ++ str ": " ++ durationText F ttl =
      str "incorrect usage: invalid duration parameter: " ++ F.quote ttl := by
    unfold durationText
    rw [← List.append_assoc]
    congr 1
  by_cases hg : ttl = [] ∨ ∃ q u, IsTTL ttl q u
  · have : ∃ d, ttlOf ttl = .ok d := by
      unfold ttlOf
      by_cases h : ttl = []
      · simp [h]
      · rw [if_pos h]
        exact (c43_accepts ttl).1.2 (hg.resolve_left h)
    obtain ⟨d, hd⟩ := this
    have hl : liftE (ttlOfE F ttl) st = (.ok d, st) := by
      unfold ttlOfE
      rw [hd]; rfl
    rw [bindE_ok hl, hf d hd]
    constructor
    · exact fun h => .good hg h
    · rintro (⟨h1, h2⟩ | ⟨-, h⟩)
      · exact absurd (hg.resolve_left h1) h2
      · exact h
  · rw [not_or] at hg
    have hd : ttlOf ttl = .err .badDuration := by
      unfold ttlOf
      rw [if_pos hg.1]
      exact (c43_accepts ttl).2 hg.2
    have hl : liftE (ttlOfE F ttl) st = (.err ⟨.badDuration, str "incorrect usage: invalid duration parameter: " ++
        F.quote ttl⟩, st) := by
      unfold ttlOfE
      rw [hd]
      simp only [explain, ResE.wrap, liftE, e]
    rw [bindE_err hl]
    constructor
    · rintro rfl; exact .bad hg.1 hg.2
    · rintro (⟨h1, h2⟩ | ⟨h, -⟩)
      · rfl
      · exact absurd h (not_or.2 hg)

theorem onlyLoop_bad {F : Fmt} {e : Bytes} {rest : List Bytes} (he : e ∉ keyTypes) :
    ∀ (known : List Bytes) (m : Bool) (acc : List Bytes), (∀ k ∈ known, k ∈ keyTypes) →
      onlyLoopE F m acc (known ++ e :: rest) =
        .err ⟨.badOnlyElement, str "incorrect usage: unknown -only list element " ++ F.quote e⟩
  | [], m, acc, _ => by
    have e' : incorrectUsage ++ str ": unknown -only list element " ++ F.quote e =
      str "incorrect usage: unknown -only list element " ++ F.quote e := by congr 1
    simp only [keyTypes, List.map_cons, List.map_nil, List.mem_cons, List.not_mem_nil, or_false, not_or] at he
    rw [List.nil_append, onlyLoopE, if_neg he.1, if_neg, e']
    unfold subkeyTypeEncryption subkeyTypeAuthentication subkeyTypeSigning
    tauto
  | k :: known, m, acc, h => by
    have hk := h k List.mem_cons_self
    have ih := fun m acc => onlyLoop_bad (F := F) (rest := rest) he known m acc fun k' hk' => h k' (List.mem_cons_of_mem _ hk')
    simp only [keyTypes, List.map_cons, List.map_nil, List.mem_cons, List.not_mem_nil, or_false] at hk
    rw [List.cons_append, onlyLoopE]
    split
    · exact ih _ _
    · rename_i h1
      rw [if_pos (show k = subkeyTypeEncryption ∨ k = subkeyTypeAuthentication ∨ k = subkeyTypeSigning from
        hk.resolve_left h1)]
      exact ih _ _

theorem ends_only {F : Fmt} {only : Bytes} {f : Bool × Option (List Bytes) → ProgE Unit} {st : StE}
    {o : OutcomeE Unit} {next : (String → Prop) → Ending}
    (hf : ∀ part m subkeys, Parts only part → (m = true ↔ part "master") →
      (∀ opts : KeyOptions, opts.subkeys = subkeys → ∀ type ∈ ["encryption", "authentication", "signing"],
        (Selected opts type ↔ part type)) → ((f (m, subkeys) st).1 = o ↔ next part o)) :
    ((liftE (decodeOnlyKeyTypesE F only) >>= f) st).1 = o ↔ Only F.quote only next o := by
  have hgood : ∀ part, Parts only part → (((liftE (decodeOnlyKeyTypesE F only) >>= f) st).1 = o ↔ next part o) := by
    intro part hp
    obtain ⟨m, subkeys, h1, h2, h3⟩ := only_of_parts hp
    have hl : liftE (decodeOnlyKeyTypesE F only) st = (.ok (m, subkeys), st) := by
      rw [plain_inv (x := decodeOnlyKeyTypesE F only) (by rw [plain_only]; exact h1)]; rfl
    rw [bindE_ok hl]
    exact hf part m subkeys hp h2 h3
  have hbad : ∀ known e rest, only ≠ [] → IsList only (known ++ e :: rest) → (∀ k ∈ known, k ∈ keyTypes) →
      e ∉ keyTypes → ((liftE (decodeOnlyKeyTypesE F only) >>= f) st).1 =
        fails .badOnlyElement (str "incorrect usage: unknown -only list element " ++ F.quote e) := by
    intro known e rest h0 hl hk he
    refine bindE_err (st' := st) ?_
    unfold decodeOnlyKeyTypesE
    obtain ⟨hne, hfree, htext⟩ := hl
    rw [if_pos h0, htext, split_intercalate _ hne hfree, onlyLoop_bad he _ _ _ hk]
    rfl
  constructor
  · intro h
    by_cases hp : ∃ part, Parts only part
    · obtain ⟨part, hp⟩ := hp
      exact .good hp ((hgood part hp).1 h)
    · have h0 : only ≠ [] := by
        rintro rfl; exact hp ⟨_, .all⟩
      obtain ⟨elems, hl⟩ := c45_every_text only
      have hex : ∃ e ∈ elems, e ∉ keyTypes := by
        by_contra hc
        push Not at hc
        exact hp ⟨_, .listed h0 hl hc⟩
      obtain ⟨known, e, rest, he1, he2, he3⟩ : ∃ known e rest, elems = known ++ e :: rest ∧
          (∀ k ∈ known, k ∈ keyTypes) ∧ e ∉ keyTypes := by
        clear hl hp h
        induction elems with
        | nil => obtain ⟨e, he, -⟩ := hex; cases he
        | cons a l ih =>
          by_cases ha : a ∈ keyTypes
          · obtain ⟨e, he, hne⟩ := hex
            have : e ∈ l := by
              rcases List.mem_cons.1 he with rfl | he
              · exact absurd ha hne
              · exact he
            obtain ⟨known, e', rest, h1, h2, h3⟩ := ih ⟨e, this, hne⟩
            refine ⟨a :: known, e', rest, by rw [h1]; rfl, ?_, h3⟩
            intro k hk
            rcases List.mem_cons.1 hk with rfl | hk
            · exact ha
            · exact h2 k hk
          · exact ⟨[], a, l, rfl, by simp, ha⟩
      rw [← h, hbad known e rest h0 (he1 ▸ hl) he2 he3]
      exact .bad h0 (he1 ▸ hl) he2 he3
  · rintro (⟨h0, hl, hk, he⟩ | ⟨hp, h⟩)
    · exact hbad _ _ _ h0 hl hk he
    · exact (hgood _ hp).2 h

theorem ends_indices {enc auth sig : Nat} {x : ProgE Unit} {st : StE} {o : OutcomeE Unit} {next : Ending}
    (hx : enc ≤ 65535 → auth ≤ 65535 → sig ≤ 65535 → ((x st).1 = o ↔ next o)) :
    ((if enc > maxSubkeyIndex ∨ auth > maxSubkeyIndex ∨ sig > maxSubkeyIndex then
      liftE (.err ⟨.badSubkeyIndex, indexText⟩) else x) st).1 = o ↔ Indices enc auth sig next o := by
  have e : indexText = str "invalid subkey index; must be less than or equal to 65535" := by decide +kernel
  have hm : maxSubkeyIndex = 65535 := rfl
  rw [hm]
  by_cases h : enc > 65535 ∨ auth > 65535 ∨ sig > 65535
  · rw [if_pos h, e]
    constructor
    · rintro rfl; exact .large h
    · rintro (h1 | ⟨h1, h2, h3, -⟩)
      · rfl
      · omega
  · rw [if_neg h]
    rw [hx (by omega) (by omega) (by omega)]
    constructor
    · exact fun h' => .good (by omega) (by omega) (by omega) h'
    · rintro (h1 | ⟨-, -, -, h1⟩)
      · omega
      · exact h1

/-! ## Seed and key -/

theorem generateSeedE_short {text rnd : Bytes} (h : rnd.length < 16) : generateSeedE text rnd =
    .err ⟨.randomRead, str "failed to generate 128 bits of secure random seed data: " ++ text⟩ := by
  have e : str "failed to generate " ++ formatInt entropyBitCount ++ str " bits of secure random seed data" ++
      str ": " = str "failed to generate 128 bits of secure random seed data: " := by decide +kernel
  have hr : randInt rnd (2 ^ entropyBitCount) = .err .randomRead := by
    change randInt rnd (2 ^ 128) = _
    rw [randInt_seed, if_pos h]
  unfold generateSeedE
  rw [hr]
  change ResE.err _ = _
  rw [e]

theorem seedE_of_bytes {os : OsText} {env : Env} {u rnd e left : Bytes} (h : SeedBytes env rnd u e left)
    (st : StE) (hst : st.rnd = rnd) :
    seedOfE os env u st = (.ok ⟨0, (valueOfBytes e : Nat)⟩, { st with rnd := left }) := by
  have key : ∀ text rest, e.length = 16 → generateSeedE text (e ++ rest) = .ok (⟨0, (valueOfBytes e : Nat)⟩, rest) := by
    intro text rest he
    apply plain_inv
    rw [plain_generateSeed]
    exact (generateSeed_bytes he).1
  unfold seedOfE
  obtain ⟨ps, r, acts⟩ := st
  dsimp only at hst
  subst hst
  cases h with
  | system he hr =>
    rw [if_neg (by simp)]
    unfold randomE
    dsimp only
    rw [hr, key _ _ he]
  | stdin he hr =>
    rw [if_pos (by decide), if_pos rfl, hr]
    change liftE (generateSeedE _ _ >>= _) _ = _
    rw [key _ _ he]; rfl
  | file h1 h2 he hr =>
    rw [if_pos h1, if_neg h2, hr]
    change liftE (generateSeedE _ _ >>= _) _ = _
    rw [key _ _ he]; rfl

theorem ends_entropy {os : OsText} {env : Env} {u : Bytes} {f : Seed → ProgE Unit} {st : StE}
    {o : OutcomeE Unit} {next : Bytes → Ending}
    (hf : ∀ (e left : Bytes), e.length = 16 →
      ((f ⟨0, (valueOfBytes e : Nat)⟩ { st with rnd := left }).1 = o ↔ next left o)) :
    ((seedOfE os env u >>= f) st).1 = o ↔ Entropy os env u st.rnd next o := by
  have hgood : ∀ e left, SeedBytes env st.rnd u e left →
      (((seedOfE os env u >>= f) st).1 = o ↔ next left o) := by
    intro e left h
    rw [bindE_ok (seedE_of_bytes h st rfl)]
    exact hf e left (seed_length h)
  have hsystem : u = [] → st.rnd.length < 16 → ((seedOfE os env u >>= f) st).1 =
      fails .randomRead (str "failed to generate 128 bits of secure random seed data: " ++ os.random) := by
    rintro rfl h
    refine bindE_err (st' := st) ?_
    unfold seedOfE
    rw [if_neg (not_not.2 rfl)]
    unfold randomE
    rw [generateSeedE_short h]
  have hsource : ∀ s, u ≠ [] → entropySource env u = some s → s.length < 16 → ((seedOfE os env u >>= f) st).1 =
      fails .randomRead (str "failed to generate 128 bits of secure random seed data: " ++ readFullText s) := by
    intro s h0 hs hl
    refine bindE_err (st' := st) ?_
    unfold seedOfE
    rw [if_pos h0]
    unfold entropySource at hs
    split at hs
    · rename_i hd
      cases hs
      rw [if_pos hd]
      change liftE (generateSeedE _ _ >>= _) _ = _
      rw [generateSeedE_short hl]; rfl
    · rename_i hd
      rw [if_neg hd, hs]
      change liftE (generateSeedE _ _ >>= _) _ = _
      rw [generateSeedE_short hl]; rfl
  have hnone : u ≠ [] → entropySource env u = none → ((seedOfE os env u >>= f) st).1 =
      fails .noEntropyFile (str "failed to open entropy source file: " ++ os.entropyOpen) := by
    intro h0 hs
    refine bindE_err (st' := st) ?_
    unfold seedOfE
    rw [if_pos h0]
    unfold entropySource at hs
    split at hs
    · cases hs
    · rename_i hd
      rw [if_neg hd, hs]
      rfl
  have e1 : str "failed to generate 128 bits of secure random seed data: " ++ readFullText [] =
    str "failed to generate 128 bits of secure random seed data: EOF" := by decide +kernel
  have e2 : ∀ s, s ≠ [] → str "failed to generate 128 bits of secure random seed data: " ++ readFullText s =
      str "failed to generate 128 bits of secure random seed data: unexpected EOF" := by
    intro s hs
    unfold readFullText
    rw [if_neg hs]
    decide +kernel
  constructor
  · intro h
    by_cases h0 : u = []
    · by_cases hl : st.rnd.length < 16
      · rw [← h, hsystem h0 hl]
        exact .system h0 hl
      · subst h0
        have hs : SeedBytes env st.rnd [] (st.rnd.take 16) (st.rnd.drop 16) :=
          .system (by rw [List.length_take]; omega) (List.take_append_drop _ _).symm
        exact .good hs ((hgood _ _ hs).1 h)
    · cases hs : entropySource env u with
      | none =>
        rw [← h, hnone h0 hs]
        exact .noFile h0 hs
      | some s =>
        by_cases hl : s.length < 16
        · rw [← h, hsource s h0 hs hl]
          by_cases hs0 : s = []
          · subst hs0
            rw [e1]
            exact .empty h0 hs
          · rw [e2 s hs0]
            exact .short h0 hs hs0 hl
        · have he : (s.take 16).length = 16 := by rw [List.length_take]; omega
          have hb : SeedBytes env st.rnd u (s.take 16) st.rnd := by
            unfold entropySource at hs
            split at hs
            · rename_i hd
              cases hs
              subst hd
              exact .stdin (more := env.stdin.drop 16) he (List.take_append_drop _ _).symm
            · rename_i hd
              exact .file (more := s.drop 16) h0 hd he (by rw [hs, List.take_append_drop])
          exact .good hb ((hgood _ _ hb).1 h)
  · rintro (⟨h0, hs⟩ | ⟨h0, hs⟩ | ⟨h0, hs, h1, h2⟩ | ⟨h0, h1⟩ | ⟨hs, h⟩)
    · exact hnone h0 hs
    · rw [hsource [] h0 hs (by simp), e1]
    · rw [hsource _ h0 hs h2, e2 _ h1]
    · exact hsystem h0 h1
    · exact (hgood _ _ hs).2 h

theorem lifetime_iff {ttl : Bytes} {d : Int} (h : ttlOf ttl = .ok d) : Lifetime ttl ↔ 0 ≤ d := by
  unfold Lifetime
  rw [← good_ttl]
  constructor
  · rintro ⟨d', h1, h2⟩
    rw [h] at h1; cases h1; exact h2
  · exact fun h' => ⟨d, h, h'⟩

theorem ends_made {C : Crypto} (hC : C.Lawful) {n : Nat} {s : Seed} (hs : newSeed 0 (n : Int) = .ok s) {ttl : Bytes}
    {k : KeyOptions} (hd : ttlOf ttl = .ok k.ttl) {now : Int} {f : Mnemonikey → ProgE Unit} {st : StE}
    {o : OutcomeE Unit} {next : Ending}
    (hf : ∀ mnk, new C s now (some k) = .ok mnk → ((f mnk st).1 = o ↔ next o)) :
    ((liftE (newE C s now (some k)) >>= f) st).1 = o ↔ Made ttl now next o := by
  obtain ⟨-, hx, rfl⟩ := (newSeed_ok_iff _ _ _).mp hs
  obtain ⟨-, h1, h2, h3, h4⟩ := c20_new hC (n : Int) hx 0 now (some k)
  have e : inForce (some k) = k := rfl
  rw [e] at h1 h2 h3 h4
  have hl := lifetime_iff hd
  have fail : ∀ {x : Err}, new C ⟨0, n⟩ now (some k) = .err x →
      ((liftE (newE C ⟨0, n⟩ now (some k)) >>= f) st).1 = fails x (newText x) := by
    intro x h
    refine bindE_err (st' := st) ?_
    unfold newE
    rw [h]; rfl
  by_cases ht : 0 ≤ k.ttl
  · by_cases hlate : (1672531200 + (2 ^ 31 - 1)) * 10 ^ 9 < now
    · rw [fail (h2 rfl ht (by omega))]
      constructor
      · rintro rfl; exact .late (hl.2 ht) hlate
      · rintro (h | ⟨-, h⟩ | ⟨-, h⟩ | ⟨-, h, h', -⟩)
        · exact absurd (hl.2 ht) h
        · rfl
        · omega
        · omega
    · by_cases hearly : now < 1672531200 * 10 ^ 9
      · rw [fail (h3 rfl ht (by omega))]
        constructor
        · rintro rfl; exact .early (hl.2 ht) hearly
        · rintro (h | ⟨-, h⟩ | ⟨-, h⟩ | ⟨-, h, h', -⟩)
          · exact absurd (hl.2 ht) h
          · omega
          · rfl
          · omega
      · obtain ⟨mnk, hm, -⟩ := h4 rfl ht (by omega) (by omega)
        have hrun : liftE (newE C ⟨0, n⟩ now (some k)) st = (.ok mnk, st) := by
          unfold newE
          rw [hm]; rfl
        rw [bindE_ok hrun, hf mnk hm]
        constructor
        · exact fun h => .good (hl.2 ht) (by omega) (by omega) h
        · rintro (h | ⟨-, h⟩ | ⟨-, h⟩ | ⟨-, -, -, h⟩)
          · exact absurd (hl.2 ht) h
          · omega
          · omega
          · exact h
  · rw [fail (h1 rfl (by omega))]
    have hno : ¬ Lifetime ttl := fun h => ht (hl.1 h)
    constructor
    · rintro rfl; exact .negative hno
    · rintro (h | ⟨h, -⟩ | ⟨h, -⟩ | ⟨h, -⟩)
      · rfl
      all_goals exact absurd h hno

theorem ends_remade {C : Crypto} (hC : C.Lawful) {n : Nat} {s : Seed} (hs : newSeed 0 (n : Int) = .ok s) {ttl : Bytes}
    {k : KeyOptions} (hd : ttlOf ttl = .ok k.ttl) {now : Int}
    (hnow : 1672531200 * 10 ^ 9 ≤ now ∧ now ≤ (1672531200 + (2 ^ 31 - 1)) * 10 ^ 9) {f : Mnemonikey → ProgE Unit}
    {st : StE} {o : OutcomeE Unit} {next : Ending}
    (hf : ∀ mnk, new C s now (some k) = .ok mnk → ((f mnk st).1 = o ↔ next o)) :
    ((liftE ((newE C s now (some k)).wrap (str "failed to re-derive PGP keys")) >>= f) st).1 = o ↔
      Remade ttl next o := by
  obtain ⟨-, hx, rfl⟩ := (newSeed_ok_iff _ _ _).mp hs
  obtain ⟨-, h1, h2, h3, h4⟩ := c20_new hC (n : Int) hx 0 now (some k)
  have e : inForce (some k) = k := rfl
  rw [e] at h1 h2 h3 h4
  have hl := lifetime_iff hd
  by_cases ht : 0 ≤ k.ttl
  · obtain ⟨mnk, hm, -⟩ := h4 rfl ht (by omega) (by omega)
    have hrun : liftE ((newE C ⟨0, n⟩ now (some k)).wrap (str "failed to re-derive PGP keys")) st = (.ok mnk, st) := by
      unfold newE
      rw [hm]; rfl
    rw [bindE_ok hrun, hf mnk hm]
    constructor
    · exact fun h => .good (hl.2 ht) h
    · rintro (h | ⟨-, h⟩)
      · exact absurd (hl.2 ht) h
      · exact h
  · have hno : ¬ Lifetime ttl := fun h => ht (hl.1 h)
    have : ((liftE ((newE C ⟨0, n⟩ now (some k)).wrap (str "failed to re-derive PGP keys")) >>= f) st).1 =
        fails .ttlInvalid (str "failed to re-derive PGP keys: key time-to-live cannot be negative") := by
      refine bindE_err (st' := st) ?_
      unfold newE
      rw [h1 rfl (by omega)]
      have e : str "failed to re-derive PGP keys" ++ str ": " ++ newText .ttlInvalid =
        str "failed to re-derive PGP keys: key time-to-live cannot be negative" := by decide +kernel
      simp only [explain, ResE.wrap, liftE, e]
    rw [this]
    constructor
    · rintro rfl; exact .negative hno
    · rintro (h | ⟨h, -⟩)
      · rfl
      · exact absurd h hno

/-! ## Passwords and random bytes -/

theorem ends_password {wanted : Bool} {f : Bytes → ProgE Unit} {st : StE} {o : OutcomeE Unit}
    {next : List (ResE Bytes) → Ending} (hps : ∀ r ∈ st.prompts, PromptAnswer r)
    (hf : ∀ p rest, wanted = decide (p ≠ []) → (∀ r ∈ rest, PromptAnswer r) →
      ((f p { st with prompts := rest }).1 = o ↔ next rest o)) :
    (((if wanted then userInputPasswordE true else pure [] : ProgE Bytes) >>= f) st).1 = o ↔
      Password wanted st.prompts next o := by
  obtain ⟨ps, rnd, acts⟩ := st
  dsimp only at hps hf ⊢
  cases wanted with
  | false =>
    rw [if_neg (by simp)]
    change (f [] ⟨ps, rnd, acts⟩).1 = o ↔ _
    rw [hf [] ps rfl hps]
    constructor
    · exact fun h => .no rfl h
    · rintro (⟨-, h⟩ | ⟨h, -⟩ | ⟨h, -⟩ | ⟨h, -⟩)
      · exact h
      all_goals cases h
  | true =>
    rw [if_pos rfl]
    cases ps with
    | nil =>
      rw [bindE_waits (x := userInputPasswordE true) (st := ⟨[], rnd, acts⟩) (st' := ⟨[], rnd, acts⟩) rfl]
      constructor
      · rintro rfl; exact .waits rfl rfl
      · rintro (⟨h, -⟩ | ⟨-, h⟩ | ⟨-, h⟩ | ⟨-, h⟩)
        · cases h
        · rfl
        · cases h
        · cases h
    | cons r ps =>
      have hr := hps r List.mem_cons_self
      have hrest : ∀ r ∈ ps, PromptAnswer r := fun r hr => hps r (List.mem_cons_of_mem _ hr)
      cases hr with
      | @password p hp =>
        rw [bindE_ok (x := userInputPasswordE true) (st := ⟨.ok p :: ps, rnd, acts⟩) (st' := ⟨ps, rnd, acts⟩)
          (a := p) rfl, hf p ps (by simpa using hp) hrest]
        constructor
        · exact fun h => .typed rfl rfl h
        · rintro (⟨h, -⟩ | ⟨-, h⟩ | ⟨-, h⟩ | ⟨-, h, h'⟩)
          · cases h
          · cases h
          · cases h
          · cases h; exact h'
      | @failed e he =>
        rw [bindE_err (x := userInputPasswordE true) (st := ⟨.err e :: ps, rnd, acts⟩) (st' := ⟨ps, rnd, acts⟩)
          (e := e) rfl]
        constructor
        · rintro rfl; exact .failed rfl rfl
        · rintro (⟨h, -⟩ | ⟨-, h⟩ | ⟨-, h⟩ | ⟨-, h, h'⟩)
          · cases h
          · cases h
          · cases h; rfl
          · cases h

open Classical in
/-- Random bytes for these parts -/
noncomputable def bytesFor (part : String → Prop) (types : List String) : Nat :=
  24 * (types.filter (fun t => part t)).length

theorem need_append (part : String → Prop) (a b : List String) : bytesFor part (a ++ b) = bytesFor part a + bytesFor part b := by
  unfold bytesFor
  rw [List.filter_append, List.length_append]
  omega

theorem need_other {part : String → Prop} {type : String} (h : ¬ part type) (ts : List String) :
    bytesFor part (type :: ts) = bytesFor part ts := by
  unfold bytesFor
  rw [List.filter_cons_of_neg (by simpa using h)]

theorem need_part {part : String → Prop} {type : String} (h : part type) (ts : List String) :
    bytesFor part (type :: ts) = 24 + bytesFor part ts := by
  unfold bytesFor
  rw [List.filter_cons_of_pos (by simpa using h), List.length_cons]
  omega

theorem runsOut_lt {os : OsText} {part : String → Prop} {types : List String} {n : Nat} {t : Bytes}
    (h : RunsOut os part types n t) : n < bytesFor part types := by
  induction h with
  | other hp _ ih => rw [need_other hp]; exact ih
  | later hp _ ih => rw [need_part hp]; omega
  | salt hp h => rw [need_part hp]; omega
  | iv hp h1 h2 => rw [need_part hp]; omega

theorem runsOut_unique {os : OsText} {part : String → Prop} {types : List String} {n : Nat} {t : Bytes}
    (h : RunsOut os part types n t) : ∀ {t'}, RunsOut os part types n t' → t = t' := by
  induction h with
  | other hp _ ih =>
    intro t' h'
    cases h' with
    | other _ h' => exact ih h'
    | later hp' _ => exact absurd hp' hp
    | salt hp' _ => exact absurd hp' hp
    | iv hp' _ _ => exact absurd hp' hp
  | @later type types n t hp _ ih =>
    intro t' h'
    generalize hm : 24 + n = m at h'
    cases h' with
    | other hp' h' => exact absurd hp hp'
    | @later _ _ k _ hp' h' =>
      obtain rfl : n = k := by omega
      exact ih h'
    | salt hp' _ => omega
    | iv hp' _ _ => omega
  | salt hp h =>
    intro t' h'
    cases h' with
    | other hp' h' => exact absurd hp hp'
    | later hp' h' => omega
    | salt hp' _ => rfl
    | iv hp' _ _ => omega
  | iv hp h1 h2 =>
    intro t' h'
    cases h' with
    | other hp' h' => exact absurd hp hp'
    | later hp' h' => omega
    | salt hp' _ => omega
    | iv hp' _ _ => rfl

theorem runsOut_append {os : OsText} {part : String → Prop} {a : List String} (b : List String) {n : Nat} {t : Bytes}
    (h : RunsOut os part a n t) : RunsOut os part (a ++ b) n t := by
  induction h with
  | other hp _ ih => exact .other hp ih
  | later hp _ ih => exact .later hp ih
  | salt hp h => exact .salt hp h
  | iv hp h1 h2 => exact .iv hp h1 h2

theorem runsOut_after {os : OsText} {part : String → Prop} {b : List String} {n : Nat} {t : Bytes}
    (h : RunsOut os part b n t) : ∀ a : List String, RunsOut os part (a ++ b) (bytesFor part a + n) t
  | [] => by simpa [bytesFor] using h
  | type :: a => by
    by_cases hp : part type
    · rw [need_part hp, Nat.add_assoc]
      exact .later hp (runsOut_after h a)
    · rw [need_other hp]
      exact .other hp (runsOut_after h a)

/-- The computation takes the random bytes for these parts, and fails as it should if there are fewer. -/
def Packs {α : Type} (os : OsText) (part : String → Prop) (types : List String) (f : Bytes → ResE (α × Bytes)) :
    Prop :=
  ∀ rnd : Bytes, (bytesFor part types ≤ rnd.length →
      ∃ a rest, f rnd = .ok (a, rest) ∧ rest.length + bytesFor part types = rnd.length) ∧
    (rnd.length < bytesFor part types → ∃ t, f rnd = .err ⟨.randomRead, t⟩ ∧ RunsOut os part types rnd.length t)

theorem packs_bind {α β : Type} {os : OsText} {part : String → Prop} {a b : List String}
    {f : Bytes → ResE (α × Bytes)} {g : α → Bytes → ResE (β × Bytes)} (hf : Packs os part a f)
    (hg : ∀ x, Packs os part b (g x)) : Packs os part (a ++ b) (fun rnd => f rnd >>= fun p => g p.1 p.2) := by
  intro rnd
  rw [need_append]
  by_cases hk : bytesFor part a ≤ rnd.length
  · obtain ⟨x, rest, h1, h2⟩ := (hf rnd).1 hk
    constructor
    · intro h
      obtain ⟨y, rest', h3, h4⟩ := (hg x rest).1 (by omega)
      refine ⟨y, rest', ?_, by omega⟩
      dsimp only
      rw [h1]
      exact h3
    · intro h
      obtain ⟨t, h3, h4⟩ := (hg x rest).2 (by omega)
      refine ⟨t, ?_, ?_⟩
      · dsimp only
        rw [h1]
        exact h3
      · rw [← h2, Nat.add_comm]
        exact runsOut_after h4 a
  · constructor
    · intro h; omega
    · intro _
      obtain ⟨t, h3, h4⟩ := (hf rnd).2 (by omega)
      refine ⟨t, ?_, runsOut_append b h4⟩
      dsimp only
      rw [h3]
      rfl

theorem packs_map {α β : Type} {os : OsText} {part : String → Prop} {a : List String}
    {f : Bytes → ResE (α × Bytes)} (hf : Packs os part a f) {g : α → ResE β} (hg : ∀ a, ∃ b, g a = .ok b) :
    Packs os part a (fun rnd => f rnd >>= fun p => g p.1 >>= fun b => .ok (b, p.2)) := by
  have := packs_bind (b := []) (g := fun a rnd => g a >>= fun b => .ok (b, rnd)) hf (fun a rnd => by
    obtain ⟨b, hb⟩ := hg a
    rw [hb]
    exact ⟨fun _ => ⟨b, rnd, rfl, by simp [bytesFor]⟩, fun h => by simp [bytesFor] at h⟩)
  rw [List.append_nil] at this
  exact this

theorem packs_packet {os : OsText} {C : Crypto} (hC : C.Lawful) (key : ECKey) (tag : Byte) {password : Bytes}
    (hp : password ≠ []) {part : String → Prop} {type : String} (ht : part type) {before : Bytes}
    (hb : before = str "failed to encode " ++ packetName type ++ str " packet") :
    Packs os part [type] (fun rnd => (encodePrivatePacketE os C tag key password rnd).wrap before) := by
  intro rnd
  have hn : bytesFor part [type] = 24 := need_part ht []
  rw [hn]
  constructor
  · intro h
    obtain ⟨a, rest, h1, h2⟩ := (takes_packet hC key tag password rnd).1 (by unfold one; rw [if_neg hp]; exact h)
    refine ⟨a, rest, ?_, by unfold one at h2; rw [if_neg hp] at h2; exact h2⟩
    apply plain_inv
    rw [plain_wrap, plain_encodePrivatePacket]
    exact h1
  · intro h
    have hpos := List.length_pos_of_ne_nil hp
    by_cases h8 : rnd.length < 8
    · refine ⟨_, ?_, .salt ht h8⟩
      have e : str " packet: failed to read random salt: " =
        str " packet" ++ str ": " ++ str "failed to read random salt" ++ str ": " := by decide +kernel
      have h1 : encodePrivatePacketE os C tag key password rnd =
          .err ⟨.randomRead, str "failed to read random salt" ++ str ": " ++ os.random⟩ := by
        unfold encodePrivatePacketE encodePrivateE
        rw [if_pos hpos]
        unfold encryptS2KE randRead
        rw [if_pos h8]
        rfl
      dsimp only
      rw [h1, hb, e]
      simp only [ResE.wrap, List.append_assoc]
    · refine ⟨_, ?_, .iv ht (by omega) h⟩
      have e : str " packet: failed to read random IV: " =
        str " packet" ++ str ": " ++ str "failed to read random IV" ++ str ": " := by decide +kernel
      have h1 : encodePrivatePacketE os C tag key password rnd =
          .err ⟨.randomRead, str "failed to read random IV" ++ str ": " ++ os.random⟩ := by
        unfold encodePrivatePacketE encodePrivateE
        rw [if_pos hpos]
        unfold encryptS2KE randRead
        rw [if_neg h8]
        have h16 : (rnd.drop 8).length < 16 := by rw [List.length_drop]; omega
        change ((((explain (if (rnd.drop 8).length < 16 then _ else _) _).wrap _ >>= _ : ResE _) >>= _) >>= _) = _
        rw [if_pos h16]
        rfl
      dsimp only
      rw [h1, hb, e]
      simp only [ResE.wrap, List.append_assoc]

theorem packs_subkey {os : OsText} {C : Crypto} (hC : C.Lawful) {type : String} (hm : type ≠ "master") (master : EdKey)
    (key : ECKey) (flags : Byte) (expiry : Int) {password : Bytes} (hp : password ≠ []) {part : String → Prop}
    (ht : part type) (h : ∃ sig, master.bindSubkey C key flags expiry = .ok sig) :
    Packs os part [type] (encodeSubkeyPacketsE os C (str type) master key flags expiry password) := by
  obtain ⟨sig, hsig⟩ := h
  have := packs_map (packs_packet (os := os) hC key packetTagSecretSubkey hp ht
    (before := str "failed to encode " ++ str type ++ str " subkey packet") (by
      unfold packetName
      rw [if_neg hm]
      have e : str " subkey packet" = str " subkey" ++ str " packet" := by decide +kernel
      rw [e]
      simp only [List.append_assoc]))
    (g := fun b => .ok (b ++ sig.encodePacket)) (fun a => ⟨_, rfl⟩)
  unfold encodeSubkeyPacketsE
  rw [hsig]
  exact this

theorem packs_other {os : OsText} {part : String → Prop} {type : String} (h : ¬ part type) (b : Bytes) :
    Packs os part [type] (fun rnd => .ok (b, rnd)) := by
  intro rnd
  rw [need_other h]
  exact ⟨fun _ => ⟨b, rnd, rfl, by simp [bytesFor]⟩, fun h => by simp [bytesFor] at h⟩

theorem packs_all {os : OsText} {C : Crypto} (hC : C.Lawful) (ks : KeySet)
    (hs : ∀ k, ks.signingSubkey = some k → k.base.privateSigning = some k.priv) {password : Bytes}
    (hp : password ≠ []) {part : String → Prop} (p1 : ks.encryptionSubkey.isSome = true ↔ part "encryption")
    (p2 : ks.authenticationSubkey.isSome = true ↔ part "authentication")
    (p3 : ks.signingSubkey.isSome = true ↔ part "signing") :
    Packs os part ["encryption", "authentication", "signing"] (encodeAllSubkeyPacketsE os C ks password) := by
  have h1 : Packs os part ["encryption"] (encodeEncryptionE os C ks password) := by
    unfold encodeEncryptionE
    cases hk : ks.encryptionSubkey with
    | none => rw [hk] at p1; exact packs_other (by rw [← p1]; simp) []
    | some k =>
      rw [hk] at p1
      exact packs_subkey (type := "encryption") hC (by decide) _ _ _ _ hp (p1.1 rfl)
        ⟨_, bindSubkey_plain hC _ _ _ _ (by decide)⟩
  have h2 : Packs os part ["authentication"] (encodeAuthenticationE os C ks password) := by
    unfold encodeAuthenticationE
    cases hk : ks.authenticationSubkey with
    | none => rw [hk] at p2; exact packs_other (by rw [← p2]; simp) []
    | some k =>
      rw [hk] at p2
      exact packs_subkey (type := "authentication") hC (by decide) _ _ _ _ hp (p2.1 rfl)
        ⟨_, bindSubkey_plain hC _ _ _ _ (by decide)⟩
  have h3 : Packs os part ["signing"] (encodeSigningE os C ks password) := by
    unfold encodeSigningE
    cases hk : ks.signingSubkey with
    | none => rw [hk] at p3; exact packs_other (by rw [← p3]; simp) []
    | some k =>
      rw [hk] at p3
      exact packs_subkey (type := "signing") hC (by decide) _ _ _ _ hp (p3.1 rfl)
        ⟨_, bindSubkey_sign hC _ _ k.priv _ (hs k hk)⟩
  obtain ⟨order, -, hf⟩ := shuffle_perm (C.shuffleDraw (shuffleSeed C ks.masterKey.priv))
    (hC.shuffle_le _) 2 [0, 1, 2] (by simp)
  have hsh : ∀ g0 g1 g2 : Bytes, ∃ out, shuffleLoop (C.shuffleDraw (shuffleSeed C ks.masterKey.priv))
      2 [g0, g1, g2] = .ok out := fun g0 g1 g2 =>
    ⟨_, hf (fun i => [g0, g1, g2].getD i [])⟩
  suffices h : ∀ g0 g1, Packs os part ["signing"] (fun rnd => encodeSigningE os C ks password rnd >>= fun p =>
      noError (shuffleLoop (C.shuffleDraw (shuffleSeed C ks.masterKey.priv)) 2 [g0, g1, p.1]) >>= fun l =>
        (.ok (l.flatten, p.2) : ResE (Bytes × Bytes))) from
    packs_bind h1 (fun g0 => packs_bind h2 (fun g1 => h g0 g1))
  intro g0 g1
  have h4 := packs_map h3 (g := fun g2 =>
    (noError (shuffleLoop (C.shuffleDraw (shuffleSeed C ks.masterKey.priv)) 2 [g0, g1, g2]) >>= fun l =>
      (.ok l.flatten : ResE Bytes))) (fun g2 => by
        obtain ⟨out, ho⟩ := hsh g0 g1 g2
        exact ⟨_, by rw [ho]; rfl⟩)
  intro rnd
  obtain ⟨a, b⟩ := h4 rnd
  have e : (encodeSigningE os C ks password rnd >>= fun p =>
      (noError (shuffleLoop (C.shuffleDraw (shuffleSeed C ks.masterKey.priv)) 2 [g0, g1, p.1]) >>= fun l =>
        (.ok l.flatten : ResE Bytes)) >>= fun b => (.ok (b, p.2) : ResE (Bytes × Bytes))) =
      (encodeSigningE os C ks password rnd >>= fun p =>
        noError (shuffleLoop (C.shuffleDraw (shuffleSeed C ks.masterKey.priv)) 2 [g0, g1, p.1]) >>= fun l =>
          (.ok (l.flatten, p.2) : ResE (Bytes × Bytes))) := by
    congr 1
    funext p
    obtain ⟨out, ho⟩ := hsh g0 g1 p.1
    rw [ho]; rfl
  dsimp only at a b
  rw [e] at a b
  exact ⟨a, b⟩

theorem packs_full {os : OsText} {C : Crypto} (hC : C.Lawful) (ks : KeySet)
    (hs : ∀ k, ks.signingSubkey = some k → k.base.privateSigning = some k.priv) {password : Bytes}
    (hp : password ≠ []) {part : String → Prop} (p0 : part "master")
    (p1 : ks.encryptionSubkey.isSome = true ↔ part "encryption")
    (p2 : ks.authenticationSubkey.isSome = true ↔ part "authentication")
    (p3 : ks.signingSubkey.isSome = true ↔ part "signing") :
    Packs os part ["master", "encryption", "authentication", "signing"] (encodePacketsE os C ks password) := by
  unfold encodePacketsE KeySet.encodeSelfCertification
  rw [selfCertify_eq hC]
  exact packs_bind (packs_packet (os := os) hC ks.masterKey.base packetTagSecretKey hp p0 (by decide +kernel))
    (fun m => packs_map (packs_all hC ks hs hp p1 p2 p3) (g := fun b => .ok (m ++ ks.userID.encodePacket ++
      (signed C ks.masterKey.priv (certReq C ks.masterKey ks.userID)).encodePacket ++ b))
      (fun a => ⟨_, rfl⟩))

theorem packs_subkeys {os : OsText} {C : Crypto} (hC : C.Lawful) (ks : KeySet)
    (hs : ∀ k, ks.signingSubkey = some k → k.base.privateSigning = some k.priv) {password : Bytes}
    (hp : password ≠ []) {part : String → Prop} (p0 : ¬ part "master")
    (p1 : ks.encryptionSubkey.isSome = true ↔ part "encryption")
    (p2 : ks.authenticationSubkey.isSome = true ↔ part "authentication")
    (p3 : ks.signingSubkey.isSome = true ↔ part "signing") (cert : Bool) :
    Packs os part ["master", "encryption", "authentication", "signing"]
      (encodeOnlySubkeyPacketsE os C ks password cert) := by
  have h := packs_bind (packs_other (os := os) p0 []) (fun _ => packs_map (packs_all (os := os) hC ks hs hp p1 p2 p3)
    (g := fun b => .ok (ks.masterKey.encodePrivateDummyPacket ++ ks.userID.encodePacket ++
      (if cert then (signed C ks.masterKey.priv (certReq C ks.masterKey ks.userID)).encodePacket else []) ++ b))
      (fun a => ⟨_, rfl⟩))
  unfold encodeOnlySubkeyPacketsE KeySet.encodeSelfCertification
  rw [selfCertify_eq hC]
  cases cert <;> exact h

theorem ends_packed {os : OsText} {C : Crypto} (hC : C.Lawful) {n : Nat} {s : Seed} (hs : newSeed 0 (n : Int) = .ok s)
    {now : Int} {k : KeyOptions} {mnk : Mnemonikey} (h : new C s now (some k) = .ok mnk) {m : Bool}
    {part : String → Prop} (hm : m = true ↔ part "master")
    (ho : ∀ type ∈ ["encryption", "authentication", "signing"], (Selected k type ↔ part type))
    (cert : Bool) {protect : Bool} {password : Bytes} (hp : protect = decide (password ≠ [])) {f : Bytes → ProgE Unit}
    {st : StE} {o : OutcomeE Unit} {next : Nat → Ending}
    (hf : ∀ key left : Bytes, ((f key { st with rnd := left }).1 = o ↔ next left.length o)) :
    ((exportKeyE os C mnk m cert password >>= f) st).1 = o ↔ Packed os protect part st.rnd.length next o := by
  have ht := takes_export hC hs h hm ho cert password st.rnd
  rw [← hp] at ht
  have hplain : ∀ {key left}, (if m then mnk.encodePGP C password st.rnd else mnk.encodeSubkeysPGP C password cert st.rnd) =
      .ok (key, left) → exportKeyE os C mnk m cert password st = (.ok key, { st with rnd := left }) := by
    intro key left hk
    unfold exportKeyE
    cases m with
    | true =>
      have : encodePacketsE os C mnk.pgpKeySet password st.rnd = .ok (key, left) :=
        plain_inv (by rw [plain_packets]; exact hk)
      rw [if_pos rfl]
      unfold randomE
      rw [this]
    | false =>
      have : encodeOnlySubkeyPacketsE os C mnk.pgpKeySet password cert st.rnd = .ok (key, left) :=
        plain_inv (by rw [plain_onlySubkeys]; exact hk)
      rw [if_neg (by simp)]
      unfold randomE
      rw [this]
  by_cases hk : randomForKey protect part ≤ st.rnd.length
  · obtain ⟨key, left, h1, h2⟩ := ht.1 hk
    rw [bindE_ok (hplain h1), hf key left]
    constructor
    · exact fun h' => .good (left := left.length) (by omega) h'
    · rintro (⟨h3, h4⟩ | @⟨_, left', h3, h4⟩)
      · have := runsOut_lt h4
        rw [h3] at hk
        have e : randomForKey true part = bytesFor part ["master", "encryption", "authentication", "signing"] := by
          unfold randomForKey bytesFor
          rw [if_pos rfl]
        omega
      · obtain rfl : left.length = left' := by omega
        exact h4
  · have hprot : protect = true := by
      cases protect
      · unfold randomForKey at hk; simp at hk
      · rfl
    have hpw : password ≠ [] := by
      rw [hprot] at hp; simpa using hp.symm
    have e : randomForKey protect part = bytesFor part ["master", "encryption", "authentication", "signing"] := by
      unfold randomForKey bytesFor
      rw [hprot, if_pos rfl]
    have herr : ∃ t, RunsOut os part ["master", "encryption", "authentication", "signing"] st.rnd.length t ∧
        exportKeyE os C mnk m cert password st = (.err ⟨.randomRead, t⟩, st) := by
      obtain ⟨second, -, -, -, -, -, -, rfl⟩ := new_shape hC hs h
      have hsign : ∀ x, (keySetOf C (n : Int).natAbs second (second * 10 ^ 9)
          (expiryOf (second * 10 ^ 9) k.ttl) k).signingSubkey = some x → x.base.privateSigning = some x.priv := by
        intro x hx
        unfold keySetOf at hx
        dsimp only at hx
        split at hx
        · cases hx; rfl
        · cases hx
      have e1 := ho "encryption" (by simp)
      have e2 := ho "authentication" (by simp)
      have e3 := ho "signing" (by simp)
      rw [← subkeyEnabled_iff] at e1 e2 e3
      have p1 : (keySetOf C (n : Int).natAbs second (second * 10 ^ 9)
          (expiryOf (second * 10 ^ 9) k.ttl) k).encryptionSubkey.isSome = true ↔ part "encryption" := by
        rw [← e1]
        unfold keySetOf
        dsimp only
        have t1 : subkeyTypeEncryption = str "encryption" := rfl
        rw [t1]
        split <;> simp_all
      have p2 : (keySetOf C (n : Int).natAbs second (second * 10 ^ 9)
          (expiryOf (second * 10 ^ 9) k.ttl) k).authenticationSubkey.isSome = true ↔ part "authentication" := by
        rw [← e2]
        unfold keySetOf
        dsimp only
        have t1 : subkeyTypeAuthentication = str "authentication" := rfl
        rw [t1]
        split <;> simp_all
      have p3 : (keySetOf C (n : Int).natAbs second (second * 10 ^ 9)
          (expiryOf (second * 10 ^ 9) k.ttl) k).signingSubkey.isSome = true ↔ part "signing" := by
        rw [← e3]
        unfold keySetOf
        dsimp only
        have t1 : subkeyTypeSigning = str "signing" := rfl
        rw [t1]
        split <;> simp_all
      unfold exportKeyE
      cases m with
      | true =>
        obtain ⟨t, h1, h2⟩ := (packs_full (os := os) hC _ hsign hpw (hm.1 rfl) p1 p2 p3 st.rnd).2 (by omega)
        refine ⟨t, h2, ?_⟩
        rw [if_pos rfl]
        unfold randomE
        dsimp only [Option.getD_some]
        rw [h1]
      | false =>
        obtain ⟨t, h1, h2⟩ := (packs_subkeys (os := os) hC _ hsign hpw (fun h => by have := hm.2 h; cases this)
          p1 p2 p3 cert st.rnd).2 (by omega)
        refine ⟨t, h2, ?_⟩
        rw [if_neg (by simp)]
        unfold randomE
        dsimp only [Option.getD_some]
        rw [h1]
    obtain ⟨t, h1, h2⟩ := herr
    rw [bindE_err h2]
    constructor
    · rintro rfl; exact .random hprot h1
    · rintro (⟨h3, h4⟩ | ⟨h3, h4⟩)
      · rw [runsOut_unique h1 h4]
      · omega

end Verif.Proofs
