import Verif.Spec.Success
import Verif.Proofs.Failure
import Verif.Props.Request

/-!
# Programs that succeed
-/

namespace Verif.Proofs

open Verif.Model Verif.Model.Cli Verif.Model.Pgp Verif.Spec Verif.Spec.OpenPGP Verif.Props

/-! ## Random bytes -/

/-- The computation takes `k` random bytes, and fails only if there are fewer. -/
def Takes {α : Type} (f : Bytes → Res (α × Bytes)) (k : Nat) : Prop :=
  ∀ rnd : Bytes, (k ≤ rnd.length → ∃ a rest, f rnd = .ok (a, rest) ∧ rest.length + k = rnd.length) ∧
    (rnd.length < k → f rnd = .err .randomRead)

theorem takes_bind {α β : Type} {f : Bytes → Res (α × Bytes)} {g : α → Bytes → Res (β × Bytes)} {k m : Nat}
    (hf : Takes f k) (hg : ∀ a, Takes (g a) m) :
    Takes (fun rnd => f rnd >>= fun p => g p.1 p.2) (k + m) := by
  intro rnd
  by_cases hk : k ≤ rnd.length
  · obtain ⟨a, rest, h1, h2⟩ := (hf rnd).1 hk
    constructor
    · intro h
      obtain ⟨b, rest', h3, h4⟩ := (hg a rest).1 (by omega)
      refine ⟨b, rest', ?_, by omega⟩
      dsimp only
      rw [h1, Res.bind_ok]
      exact h3
    · intro h
      dsimp only
      rw [h1, Res.bind_ok]
      exact (hg a rest).2 (by omega)
  · constructor
    · intro h; omega
    · intro _
      dsimp only
      rw [(hf rnd).2 (by omega)]
      rfl

theorem takes_ok {α : Type} (g : α) : Takes (fun rnd => .ok (g, rnd)) 0 :=
  fun rnd => ⟨fun _ => ⟨g, rnd, rfl, rfl⟩, fun h => by omega⟩

theorem takes_map {α β : Type} {f : Bytes → Res (α × Bytes)} {k : Nat} (hf : Takes f k)
    {g : α → Res β} (hg : ∀ a, ∃ b, g a = .ok b) :
    Takes (fun rnd => f rnd >>= fun p => g p.1 >>= fun b => .ok (b, p.2)) k := by
  have := takes_bind (g := fun a rnd => g a >>= fun b => .ok (b, rnd)) (m := 0) hf (fun a => by
    obtain ⟨b, hb⟩ := hg a
    rw [show (fun rnd : Bytes => g a >>= fun b => (.ok (b, rnd) : Res (β × Bytes))) = fun rnd => .ok (b, rnd) from by
      funext rnd; rw [hb]; rfl]
    exact takes_ok b)
  exact this

/-- Random bytes for one secret -/
def one (password : Bytes) : Nat := if password = [] then 0 else 24

theorem takes_encodePrivate {C : Crypto} (hC : C.Lawful) (key : ECKey) (password : Bytes) :
    Takes (key.encodePrivate C password) (one password) := by
  intro rnd
  unfold one
  by_cases hp : password = []
  · subst hp
    rw [if_pos rfl]
    exact ⟨fun _ => ⟨_, _, encodePrivate_clear C key rnd, rfl⟩, fun h => by omega⟩
  · rw [if_neg hp]
    refine ⟨fun h => ⟨_, _, encodePrivate_locked hC key password rnd hp h, ?_⟩, fun h => ?_⟩
    · rw [List.length_drop]; omega
    · unfold ECKey.encodePrivate
      rw [if_pos (List.length_pos_of_ne_nil hp)]
      unfold encryptS2K randRead
      by_cases h8 : rnd.length < 8
      · rw [if_pos h8]; rfl
      · rw [if_neg h8, Res.bind_ok]
        dsimp only
        rw [if_pos (by rw [List.length_drop]; omega)]
        rfl

theorem takes_packet {C : Crypto} (hC : C.Lawful) (key : ECKey) (tag : Byte) (password : Bytes) :
    Takes (key.encodePrivatePacket C tag password) (one password) := by
  have := takes_map (takes_encodePrivate hC key password) (g := fun b => .ok (encodePacket tag b))
    (fun a => ⟨_, rfl⟩)
  exact this

theorem takes_subkey {C : Crypto} (hC : C.Lawful) (master : EdKey) (key : ECKey) (flags : Byte) (expiry : Int)
    (password : Bytes) (h : ∃ sig, master.bindSubkey C key flags expiry = .ok sig) :
    Takes (Pgp.encodeSubkeyPackets C master key flags expiry password) (one password) := by
  obtain ⟨sig, hsig⟩ := h
  have := takes_map (takes_packet hC key packetTagSecretSubkey password)
    (g := fun b => .ok (b ++ sig.encodePacket)) (fun a => ⟨_, rfl⟩)
  unfold Pgp.encodeSubkeyPackets
  rw [hsig]
  exact this

/-- Random bytes for a subkey that may be there -/
def oneIf {α : Type} (o : Option α) (password : Bytes) : Nat := if o.isSome then one password else 0

theorem takes_all {C : Crypto} (hC : C.Lawful) (ks : KeySet)
    (hs : ∀ k, ks.signingSubkey = some k → k.base.privateSigning = some k.priv) (password : Bytes) :
    Takes (ks.encodeAllSubkeyPackets C password)
      (oneIf ks.encryptionSubkey password + (oneIf ks.authenticationSubkey password +
        oneIf ks.signingSubkey password)) := by
  have h1 : Takes (ks.encodeEncryption C password) (oneIf ks.encryptionSubkey password) := by
    unfold KeySet.encodeEncryption
    cases ks.encryptionSubkey with
    | none => exact takes_ok _
    | some k => exact takes_subkey hC _ _ _ _ _ ⟨_, bindSubkey_plain hC _ _ _ _ (by decide)⟩
  have h2 : Takes (ks.encodeAuthentication C password) (oneIf ks.authenticationSubkey password) := by
    unfold KeySet.encodeAuthentication
    cases ks.authenticationSubkey with
    | none => exact takes_ok _
    | some k => exact takes_subkey hC _ _ _ _ _ ⟨_, bindSubkey_plain hC _ _ _ _ (by decide)⟩
  have h3 : Takes (ks.encodeSigning C password) (oneIf ks.signingSubkey password) := by
    unfold KeySet.encodeSigning
    cases hk : ks.signingSubkey with
    | none => exact takes_ok _
    | some k => exact takes_subkey hC _ _ _ _ _ ⟨_, bindSubkey_sign hC _ _ k.priv _ (hs k hk)⟩
  obtain ⟨order, -, hf⟩ := shuffle_perm (C.shuffleDraw (shuffleSeed C ks.masterKey.priv))
    (hC.shuffle_le _) 2 [0, 1, 2] (by simp)
  have hsh : ∀ g0 g1 g2 : Bytes, ∃ out, shuffleLoop (C.shuffleDraw (shuffleSeed C ks.masterKey.priv))
      2 [g0, g1, g2] = .ok out := fun g0 g1 g2 =>
    ⟨_, hf (fun i => [g0, g1, g2].getD i [])⟩
  suffices h : ∀ g0 g1, Takes (fun rnd => ks.encodeSigning C password rnd >>= fun p =>
      shuffleLoop (C.shuffleDraw (shuffleSeed C ks.masterKey.priv)) 2 [g0, g1, p.1] >>= fun l =>
        (.ok (l.flatten, p.2) : Res (Bytes × Bytes))) (oneIf ks.signingSubkey password) from
    takes_bind h1 (fun g0 => takes_bind h2 (fun g1 => h g0 g1))
  intro g0 g1
  have h4 := takes_map h3 (g := fun g2 =>
    (shuffleLoop (C.shuffleDraw (shuffleSeed C ks.masterKey.priv)) 2 [g0, g1, g2] >>= fun l =>
      (.ok l.flatten : Res Bytes))) (fun g2 => by
        obtain ⟨out, ho⟩ := hsh g0 g1 g2
        exact ⟨_, by rw [ho]; rfl⟩)
  intro rnd
  have h5 := h4 rnd
  obtain ⟨a, b⟩ := h5
  have e : (ks.encodeSigning C password rnd >>= fun p =>
      (shuffleLoop (C.shuffleDraw (shuffleSeed C ks.masterKey.priv)) 2 [g0, g1, p.1] >>= fun l =>
        (.ok l.flatten : Res Bytes)) >>= fun b => (.ok (b, p.2) : Res (Bytes × Bytes))) =
      (ks.encodeSigning C password rnd >>= fun p =>
        shuffleLoop (C.shuffleDraw (shuffleSeed C ks.masterKey.priv)) 2 [g0, g1, p.1] >>= fun l =>
          (.ok (l.flatten, p.2) : Res (Bytes × Bytes))) := by
    congr 1
    funext p
    obtain ⟨out, ho⟩ := hsh g0 g1 p.1
    rw [ho]; rfl
  dsimp only at a b
  rw [e] at a b
  exact ⟨a, b⟩

theorem takes_full {C : Crypto} (hC : C.Lawful) (ks : KeySet)
    (hs : ∀ k, ks.signingSubkey = some k → k.base.privateSigning = some k.priv) (password : Bytes) :
    Takes (ks.encodePackets C password)
      (one password + (oneIf ks.encryptionSubkey password + (oneIf ks.authenticationSubkey password +
        oneIf ks.signingSubkey password))) := by
  unfold KeySet.encodePackets KeySet.encodeSelfCertification
  rw [selfCertify_eq hC]
  simp only [Res.bind_ok]
  exact takes_bind (takes_packet hC ks.masterKey.base packetTagSecretKey password) (fun m =>
    takes_map (takes_all hC ks hs password) (g := fun b => .ok (m ++ ks.userID.encodePacket ++
      (signed C ks.masterKey.priv (certReq C ks.masterKey ks.userID)).encodePacket ++ b))
      (fun a => ⟨_, rfl⟩))

theorem takes_subkeys {C : Crypto} (hC : C.Lawful) (ks : KeySet)
    (hs : ∀ k, ks.signingSubkey = some k → k.base.privateSigning = some k.priv) (password : Bytes)
    (cert : Bool) :
    Takes (ks.encodeSubkeyPackets C password cert)
      (oneIf ks.encryptionSubkey password + (oneIf ks.authenticationSubkey password +
        oneIf ks.signingSubkey password)) := by
  unfold KeySet.encodeSubkeyPackets KeySet.encodeSelfCertification
  rw [selfCertify_eq hC]
  cases cert <;>
  · simp only [Res.bind_ok, if_true, Bool.false_eq_true, if_false]
    exact takes_map (takes_all hC ks hs password) (g := fun b => .ok _) (fun a => ⟨_, rfl⟩)

theorem takes_export {C : Crypto} (hC : C.Lawful) {n : Nat} {s : Seed} (hs : newSeed 0 (n : Int) = .ok s)
    {now : Int} {o : KeyOptions} {mnk : Mnemonikey} (h : new C s now (some o) = .ok mnk) {m : Bool}
    {part : String → Prop} (hm : m = true ↔ part "master")
    (ho : ∀ type ∈ ["encryption", "authentication", "signing"], (Selected o type ↔ part type))
    (cert : Bool) (password : Bytes) :
    Takes (fun rnd => if m then mnk.encodePGP C password rnd else mnk.encodeSubkeysPGP C password cert rnd)
      (randomForKey (decide (password ≠ [])) part) := by
  obtain ⟨second, -, -, -, -, -, -, rfl⟩ := new_shape hC hs h
  have hsign : ∀ k, (keySetOf C (n : Int).natAbs second (second * 10 ^ 9)
      (expiryOf (second * 10 ^ 9) o.ttl) o).signingSubkey = some k → k.base.privateSigning = some k.priv := by
    intro k hk
    unfold keySetOf at hk
    dsimp only at hk
    split at hk
    · cases hk; rfl
    · cases hk
  have h1 := takes_full hC _ hsign password
  have h2 := takes_subkeys hC _ hsign password cert
  have e1 := ho "encryption" (by simp)
  have e2 := ho "authentication" (by simp)
  have e3 := ho "signing" (by simp)
  rw [← subkeyEnabled_iff] at e1 e2 e3
  have cnt : randomForKey (decide (password ≠ [])) part =
      (if m then one password else 0) +
      (oneIf (keySetOf C (n : Int).natAbs second (second * 10 ^ 9)
        (expiryOf (second * 10 ^ 9) o.ttl) o).encryptionSubkey password +
      (oneIf (keySetOf C (n : Int).natAbs second (second * 10 ^ 9)
        (expiryOf (second * 10 ^ 9) o.ttl) o).authenticationSubkey password +
      oneIf (keySetOf C (n : Int).natAbs second (second * 10 ^ 9)
        (expiryOf (second * 10 ^ 9) o.ttl) o).signingSubkey password)) := by
    have t1 : subkeyTypeEncryption = str "encryption" := rfl
    have t2 : subkeyTypeAuthentication = str "authentication" := rfl
    have t3 : subkeyTypeSigning = str "signing" := rfl
    unfold randomForKey oneIf one keySetOf
    dsimp only
    rw [t1, t2, t3]
    by_cases hp : password = [] <;> by_cases p1 : part "encryption" <;>
      by_cases p2 : part "authentication" <;> by_cases p3 : part "signing" <;> by_cases p0 : part "master" <;>
      simp only [p0, p1, p2, p3, iff_true, iff_false, Bool.not_eq_true] at hm e1 e2 e3 <;>
      simp [hp, p0, p1, p2, p3, hm, e1, e2, e3]
  rw [cnt]
  cases m
  · simp only [Bool.false_eq_true, if_false, Nat.zero_add]
    exact h2
  · simp only [if_true]
    exact h1

/-! ## Programs -/

/-- The program ends normally, with `Q`. -/
def Succ {α : Type} (x : Prog α) (st : St) (Q : α → St → Prop) : Prop := ∃ a st', x st = (.ok a, st') ∧ Q a st'

theorem succ_bind {α β : Type} {x : Prog α} {f : α → Prog β} {st : St} {Q : β → St → Prop} :
    Succ (x >>= f) st Q ↔ Succ x st (fun a st' => Succ (f a) st' Q) := by
  unfold Succ
  constructor
  · rintro ⟨b, st2, h, hq⟩
    rcases bind_run x f st with ⟨a, st1, h1, e⟩ | ⟨o, st1, -, -, o', e, hf⟩
    · exact ⟨a, st1, h1, b, st2, by rw [← e, h], hq⟩
    · rw [e] at h; cases h; exact absurd rfl (hf _)
  · rintro ⟨a, st1, h1, b, st2, h2, hq⟩
    exact ⟨b, st2, by rw [bind_run_ok h1, h2], hq⟩

theorem succ_lift {α : Type} {r : Res α} {st : St} {Q : α → St → Prop} :
    Succ (lift r) st Q ↔ ∃ a, r = .ok a ∧ Q a st := by
  unfold Succ lift
  cases r <;> simp

theorem succ_pure {α : Type} {a : α} {st : St} {Q : α → St → Prop} : Succ (pure a) st Q ↔ Q a st := by
  unfold Succ
  simp [pure_run]

theorem succ_password {confirm : Bool} {st : St} {Q : Bytes → St → Prop} :
    Succ (userInputPassword confirm) st Q ↔
      ∃ p rest, st.prompts = .ok p :: rest ∧ Q p { st with prompts := rest } := by
  unfold Succ
  constructor
  · rintro ⟨p, st', h, hq⟩
    obtain ⟨h1, h2, h3⟩ := password_run h
    refine ⟨p, st'.prompts, h1, ?_⟩
    rw [← h2, ← h3]; exact hq
  · rintro ⟨p, rest, h, hq⟩
    refine ⟨p, _, ?_, hq⟩
    unfold userInputPassword
    rw [h]

theorem succ_random {α : Type} {f : Bytes → Res (α × Bytes)} {st : St} {Q : α → St → Prop} :
    Succ (random f) st Q ↔ ∃ a r, f st.rnd = .ok (a, r) ∧ Q a { st with rnd := r } := by
  unfold Succ
  constructor
  · rintro ⟨a, st', h, hq⟩
    obtain ⟨h1, h2, h3⟩ := random_run h
    refine ⟨a, st'.rnd, h1, ?_⟩
    rw [← h2, ← h3]; exact hq
  · rintro ⟨a, r, h, hq⟩
    exact ⟨a, _, random_ok h, hq⟩

theorem succ_keyPassword {b : Bool} {st : St} {Q : Bytes → St → Prop} :
    Succ (keyPassword b) st Q ↔ ∃ typed rest, Asked b typed ∧ st.prompts = typed.map .ok ++ rest ∧
      Q (typed.headD []) { st with prompts := rest } := by
  unfold keyPassword Asked
  cases b
  · simp only [Bool.false_eq_true, if_false, succ_pure]
    constructor
    · intro h; exact ⟨[], st.prompts, rfl, rfl, h⟩
    · rintro ⟨typed, rest, h1, h2, h3⟩
      rw [List.length_eq_zero_iff] at h1
      subst h1
      rw [show rest = st.prompts from h2.symm] at h3
      exact h3
  · simp only [if_true, succ_password]
    constructor
    · rintro ⟨p, rest, h1, h2⟩; exact ⟨[p], rest, rfl, h1, h2⟩
    · rintro ⟨typed, rest, h1, h2, h3⟩
      obtain ⟨p, rfl⟩ := List.length_eq_one_iff.1 h1
      exact ⟨p, rest, h2, h3⟩

/-- The phrase made by generate and convert -/
theorem succ_words {b : Bool} {plain : Res (List Bytes)} {enc : Bytes → Bytes → Res (List Bytes × Bytes)}
    (hplain : ∃ ws, plain = .ok ws) (henc : ∀ pw, pw ≠ [] → Takes (enc pw) 3) {st : St}
    (hps : ∀ r ∈ st.prompts, PromptResult r) {Q : List Bytes → St → Prop} {R : Prop}
    (hQ : ∀ ws st', Q ws st' ↔ R) :
    Succ (if b then (userInputPassword true >>= fun p => random (enc p)) else lift plain : Prog (List Bytes)) st Q ↔
      (∃ typed rest, Asked b typed ∧ st.prompts = typed.map .ok ++ rest) ∧ randomForPhrase b ≤ st.rnd.length ∧
        R := by
  unfold Asked randomForPhrase
  cases b
  · simp only [Bool.false_eq_true, if_false, succ_lift]
    constructor
    · rintro ⟨ws, h1, h2⟩
      exact ⟨⟨[], st.prompts, rfl, rfl⟩, Nat.zero_le _, (hQ _ _).1 h2⟩
    · rintro ⟨-, -, h⟩
      obtain ⟨ws, hw⟩ := hplain
      exact ⟨ws, hw, (hQ _ _).2 h⟩
  · simp only [if_true, succ_bind, succ_password, succ_random]
    have ne : ∀ p rest, st.prompts = .ok p :: rest → p ≠ [] := by
      intro p rest h
      have := hps (.ok p) (by rw [h]; exact List.mem_cons_self)
      cases this with
      | password h => exact h
    constructor
    · rintro ⟨p, rest, h1, a, r, h2, h3⟩
      refine ⟨⟨[p], rest, rfl, h1⟩, ?_, (hQ _ _).1 h3⟩
      by_contra hlt
      rw [(henc p (ne _ _ h1) st.rnd).2 (by omega)] at h2
      cases h2
    · rintro ⟨⟨typed, rest, h1, h2⟩, h3, h4⟩
      obtain ⟨p, rfl⟩ := List.length_eq_one_iff.1 h1
      obtain ⟨a, r, h5, -⟩ := (henc p (ne _ _ h2) st.rnd).1 h3
      exact ⟨p, rest, h2, a, r, h5, (hQ _ _).2 h4⟩

theorem succ_print {env : Env} {ws : List Bytes} {st : St} :
    Succ (printMnemonic env ws) st (fun _ _ => True) ↔ 17 ≤ env.columns := by
  obtain ⟨-, h2, h3⟩ := c57_phrase_notice env.columns
  constructor
  · rintro ⟨a, st', h, -⟩
    by_contra hlt
    unfold printMnemonic at h
    by_cases hw : 2 ≤ env.columns
    · have : justifyTerminalWidth 19 env.columns 0 notice = none := h2 hw (by omega) 19
      dsimp only at h
      rw [this] at h
      cases h
    · have : justifyTerminalWidth 19 env.columns 0 notice = some (.panic .divideByZero) := h3 (by omega) 19
      dsimp only at h
      rw [this] at h
      cases h
  · intro h
    exact ⟨_, _, printMnemonic_ok h ws st, trivial⟩

theorem succ_save {env : Env} {ws : List Bytes} {path : Bytes} {st : St} {Q : Unit → St → Prop} {R : Prop}
    (hQ : ∀ u st', Q u st' ↔ R) :
    Succ (save env ws path) st Q ↔ (env.save.statFails = false ∧ env.fs.read path = none ∧
      env.save.openFails = false ∧ env.save.writeFails = none) ∧ R := by
  have hread : env.fs.read path = none ↔ (env.fs.dir path).isSome = false := by
    unfold FS.read
    cases env.fs.dir path <;> simp
  unfold save
  rw [succ_bind, hread]
  have he : ∀ acts Q, Succ (emit acts) st Q ↔ Q () { st with acts := st.acts ++ acts } := by
    intro acts Q
    exact ⟨fun ⟨_, _, h, hq⟩ => by cases h; exact hq, fun h => ⟨_, _, rfl, h⟩⟩
  rw [he, succ_lift]
  have hs : (∃ a, (saveMnemonic env.fs env.save ws path).2 = .ok a) ↔ (env.save.statFails = false ∧
      (env.fs.dir path).isSome = false ∧ env.save.openFails = false ∧ env.save.writeFails = none) := by
    unfold saveMnemonic
    cases env.save.statFails <;> cases (env.fs.dir path).isSome <;> cases env.save.openFails <;>
      cases env.save.writeFails <;> simp
  rw [← hs]
  constructor
  · rintro ⟨a, h1, h2⟩; exact ⟨⟨a, h1⟩, (hQ _ _).1 h2⟩
  · rintro ⟨⟨a, h1⟩, h2⟩; exact ⟨a, h1, (hQ _ _).2 h2⟩

theorem succ_end {env : Env} {out key : Bytes} {ws : List Bytes} {st : St} :
    Succ (generateEnd env out key ws) st (fun _ _ => True) ↔
      (out ≠ [] → env.save.statFails = false ∧ env.fs.read out = none ∧ env.save.openFails = false ∧
        env.save.writeFails = none) ∧ (out = [] → 17 ≤ env.columns) := by
  have hk : ∀ (b : Bytes) st Q, Succ (printKey b) st Q ↔
      Q () { st with acts := st.acts ++ (b ++ str "\n").map .stdout } := by
    intro b st Q
    exact ⟨fun ⟨_, _, h, hq⟩ => by rw [printKey_run] at h; cases h; exact hq,
      fun h => ⟨_, _, printKey_run b st, h⟩⟩
  unfold generateEnd
  by_cases h : out = []
  · subst h
    simp only [ne_eq, not_true_eq_false, if_false, if_true]
    change Succ (printKey (env.armor key) >>= fun _ => printMnemonic env ws) st _ ↔ _
    rw [succ_bind, hk, succ_print]
    simp
  · simp only [ne_eq, h, not_false_eq_true, if_true, if_false]
    change Succ (save env ws out >>= fun _ => printKey (env.armor key) >>= fun _ => pure ()) st _ ↔ _
    rw [succ_bind, succ_save (R := True) (fun u st' => by rw [succ_bind, hk, succ_pure])]
    simp

/-! ## Options, seed and key -/

theorem good_ttl {t : Bytes} : (∃ d, ttlOf t = .ok d ∧ 0 ≤ d) ↔
    t = [] ∨ ∃ q u, IsTTL t q u ∧ q * u * 10 ^ 9 % 2 ^ 64 < 2 ^ 63 := by
  unfold ttlOf
  by_cases h : t = []
  · simp [h]
  · rw [if_pos h]
    constructor
    · rintro ⟨d, h1, h2⟩
      obtain ⟨q, u, hq⟩ := (c43_accepts t).1.1 ⟨d, h1⟩
      refine .inr ⟨q, u, hq, ?_⟩
      rw [parseTTL_wrap hq, Res.ok.injEq] at h1
      rw [← h1] at h2
      generalize q * u * 10 ^ 9 = n at h2 ⊢
      unfold wrap64 at h2
      omega
    · rintro (h' | ⟨q, u, hq, hlt⟩)
      · exact absurd h' h
      · refine ⟨_, parseTTL_wrap hq, ?_⟩
        generalize q * u * 10 ^ 9 = n at hlt
        unfold wrap64
        omega

theorem good_only {t : Bytes} {m : Bool} {subkeys : Option (List Bytes)}
    (h : decodeOnlyKeyTypes t = .ok (m, subkeys)) :
    ∃ part, Parts t part ∧ (m = true ↔ part "master") ∧
      ∀ opts : KeyOptions, opts.subkeys = subkeys → ∀ type ∈ ["encryption", "authentication", "signing"],
        (Selected opts type ↔ part type) := by
  have : ∃ part, Parts t part := by
    by_cases h0 : t = []
    · subst h0; exact ⟨_, .all⟩
    · obtain ⟨elems, hl⟩ := c45_every_text t
      refine ⟨_, .listed h0 hl (fun e he => ?_)⟩
      by_contra hbad
      rw [(c45_only t elems hl).1 h0 ⟨e, he, hbad⟩] at h
      cases h
  obtain ⟨part, hp⟩ := this
  obtain ⟨m', s', h1, h2, h3⟩ := only_of_parts hp
  rw [h] at h1
  cases h1
  exact ⟨part, hp, h2, h3⟩

theorem seed_bytes {env : Env} {u : Bytes} {st : St} {Q : Seed → St → Prop} :
    Succ (seedOf env u) st Q ↔ ∃ e left, SeedBytes env st.rnd u e left ∧
      Q ⟨0, (valueOfBytes e : Nat)⟩ { st with rnd := left } := by
  constructor
  · have split : ∀ {r : Bytes} {s : Seed} {r' : Bytes}, generateSeed r = .ok (s, r') →
        ∃ e, e.length = 16 ∧ r = e ++ r' ∧ s = ⟨0, (valueOfBytes e : Nat)⟩ := by
      intro r s r' h
      rw [c14_generate_seed] at h
      split at h
      · cases h
      · rename_i hl
        cases h
        exact ⟨r.take 16, by rw [List.length_take]; omega, (List.take_append_drop _ _).symm, rfl⟩
    unfold seedOf
    by_cases hu : u = []
    · subst hu
      rw [if_neg (by simp), succ_random]
      rintro ⟨s, r, h1, h2⟩
      obtain ⟨e, h3, h4, rfl⟩ := split h1
      exact ⟨e, r, .system h3 h4, h2⟩
    · rw [if_pos hu, succ_lift]
      rintro ⟨s, h1, h2⟩
      obtain ⟨src, h3, h4⟩ := Res.bind_eq_ok.mp h1
      obtain ⟨⟨s', r⟩, h5, h6⟩ := Res.bind_eq_ok.mp h4
      cases h6
      obtain ⟨e, h7, h8, rfl⟩ := split h5
      by_cases hd : u = str "-"
      · rw [if_pos hd] at h3
        cases h3
        subst hd
        exact ⟨e, st.rnd, .stdin h7 h8, h2⟩
      · rw [if_neg hd] at h3
        split at h3
        · cases h3
        · rename_i content hc
          cases h3
          exact ⟨e, st.rnd, .file hu hd h7 (by rw [hc, h8]), h2⟩
  · rintro ⟨e, left, h1, h2⟩
    exact ⟨_, _, (seed_of_bytes h1 st.prompts st.acts).1, h2⟩

theorem seed_new (e : Bytes) (he : e.length = 16) :
    newSeed 0 ((valueOfBytes e : Nat) : Int) = .ok ⟨0, (valueOfBytes e : Nat)⟩ :=
  (generateSeed_bytes (rest := []) he).2

theorem seed_length {env : Env} {rnd u e left : Bytes} (h : SeedBytes env rnd u e left) : e.length = 16 := by
  cases h <;> assumption

/-- When New succeeds on a seed -/
theorem new_ok {C : Crypto} (hC : C.Lawful) {n : Nat} {s : Seed} (hs : newSeed 0 (n : Int) = .ok s)
    {now : Int} {o : KeyOptions} :
    (∃ mnk, new C s now (some o) = .ok mnk) ↔
      0 ≤ o.ttl ∧ 1672531200 * 10 ^ 9 ≤ now ∧ now ≤ (1672531200 + (2 ^ 31 - 1)) * 10 ^ 9 := by
  obtain ⟨-, hx, rfl⟩ := (newSeed_ok_iff _ _ _).mp hs
  obtain ⟨-, h1, h2, h3, h4⟩ := c20_new hC (n : Int) hx 0 now (some o)
  constructor
  · rintro ⟨mnk, h⟩
    have e : inForce (some o) = o := rfl
    rw [e] at h1 h2 h3
    refine ⟨?_, ?_, ?_⟩
    · by_contra hc
      rw [h1 rfl (by omega)] at h; cases h
    · by_contra hc
      by_cases ht : 0 ≤ o.ttl
      · rw [h3 rfl ht (by omega)] at h; cases h
      · rw [h1 rfl (by omega)] at h; cases h
    · by_contra hc
      by_cases ht : 0 ≤ o.ttl
      · rw [h2 rfl ht (by omega)] at h; cases h
      · rw [h1 rfl (by omega)] at h; cases h
  · rintro ⟨a, b, c⟩
    obtain ⟨mnk, h, -⟩ := h4 rfl a b (by omega)
    exact ⟨mnk, h⟩

theorem succ_export {C : Crypto} (hC : C.Lawful) {n : Nat} {s : Seed} (hs : newSeed 0 (n : Int) = .ok s)
    {now : Int} {o : KeyOptions} {mnk : Mnemonikey} (h : new C s now (some o) = .ok mnk) {m : Bool}
    {part : String → Prop} (hm : m = true ↔ part "master")
    (ho : ∀ type ∈ ["encryption", "authentication", "signing"], (Selected o type ↔ part type))
    (cert : Bool) {protect : Bool} {password : Bytes} (hp : protect = decide (password ≠ [])) {st : St}
    {Q : Bytes → St → Prop} :
    Succ (exportKey C mnk m cert password) st Q ↔ randomForKey protect part ≤ st.rnd.length ∧
      ∃ key left, left.length + randomForKey protect part = st.rnd.length ∧
        (if m then mnk.encodePGP C password st.rnd else mnk.encodeSubkeysPGP C password cert st.rnd) =
          .ok (key, left) ∧ Q key { st with rnd := left } := by
  subst hp
  have ht := takes_export hC hs h hm ho cert password
  have e : exportKey C mnk m cert password =
      random (fun rnd => if m then mnk.encodePGP C password rnd else mnk.encodeSubkeysPGP C password cert rnd) := by
    unfold exportKey
    cases m <;> rfl
  rw [e, succ_random]
  constructor
  · rintro ⟨key, r, h1, h2⟩
    by_cases hk : randomForKey (decide (password ≠ [])) part ≤ st.rnd.length
    · obtain ⟨b, r', h3, h4⟩ := (ht st.rnd).1 hk
      dsimp only at h1 h3
      rw [h1] at h3; cases h3
      exact ⟨hk, key, r, h4, h1, h2⟩
    · cases h1.symm.trans ((ht st.rnd).2 (by omega))
  · rintro ⟨-, key, left, -, h1, h2⟩
    exact ⟨key, left, h1, h2⟩

/-! ## The phrase -/

theorem passwordLoop_typed {C : Crypto} {dm : DecodedMnemonic} {s : Seed} : ∀ {ps rest : List (Res Bytes)},
    passwordLoop C dm ps = (.ok s, rest) →
    ∃ wrong right, ps = (wrong ++ [right]).map .ok ++ rest ∧
      (∀ p ∈ wrong, dm.decryptSeed C.toPhraseCrypto p = .err .mnemonicDecryption) ∧
      dm.decryptSeed C.toPhraseCrypto right = .ok s
  | [], _, h => by cases h
  | .err _ :: _, _, h => by cases h
  | .panic _ :: _, _, h => by cases h
  | .ok p :: ps, rest, h => by
    rw [passwordLoop] at h
    split at h
    · rename_i hp
      obtain ⟨wrong, right, h1, h2, h3⟩ := passwordLoop_typed h
      refine ⟨p :: wrong, right, by rw [h1]; rfl, ?_, h3⟩
      intro q hq
      rcases List.mem_cons.1 hq with rfl | hq
      · exact hp
      · exact h2 q hq
    · cases h
    · cases h
    · rename_i s' hs
      cases h
      exact ⟨[], p, rfl, by simp, hs⟩

theorem decode_unlocks {L : WordList} (hL : L.Lawful) {C : Crypto} (hC : C.Lawful) {env : Env}
    {opts : InputFlags} {st st1 : St} {r : Seed × DecodedMnemonic}
    (h : decodeMnemonicFromInput L C env opts st = (.ok r, st1)) :
    ∃ words unlocking, inputWords L env opts = .ok words ∧
      Unlocks (indexOf L) C.toPhraseCrypto words unlocking ∧
      st.prompts = unlocking.map .ok ++ st1.prompts ∧ st1.rnd = st.rnd ∧
      ∃ n : Nat, r.1 = ⟨0, n⟩ ∧ n < 2 ^ 128 ∧ r.2.creationOffset < 2 ^ 31 := by
  obtain ⟨seed, dm⟩ := r
  obtain ⟨ws, h1, h2, h3, h4, -⟩ := decode_run_inv h
  dsimp only at h2 h3 ⊢
  obtain ⟨c, hf, rfl, -, hr⟩ := decode_ok_words hL h2
  refine ⟨ws, ?_⟩
  cases c with
  | plaintext s o =>
    obtain ⟨dm', hd', hrun⟩ := c55_plaintext hL C env opts ws ((gets_iff hL).1 h1) s o hr st
    rw [h] at hrun
    cases hrun
    exact ⟨[], h1, .plaintext hr, rfl, rfl, s, rfl, hf.1, hf.2⟩
  | encrypted e s v o =>
    unfold seedLoop at h3
    rw [if_pos (show (decodedOf (.encrypted e s v o)).encrypted = true from rfl)] at h3
    obtain ⟨wrong, right, h5, h6, h7⟩ := passwordLoop_typed h3
    have key : ∀ p, (decodedOf (.encrypted e s v o)).decryptSeed C.toPhraseCrypto p =
        match Spec.decryptSeed C.toPhraseCrypto p e s v o with
        | none => .err .mnemonicDecryption
        | some x => .ok ⟨0, x⟩ := fun p => decryptSeed_spec hC.phrase p hf
    rw [key] at h7
    cases hx : Spec.decryptSeed C.toPhraseCrypto right e s v o with
    | none => rw [hx] at h7; cases h7
    | some x =>
      rw [hx] at h7
      cases h7
      refine ⟨wrong ++ [right], h1, .encrypted (fun p hp s' o' hh => ?_) ⟨e, s, v, hr, hx⟩, h5, h4,
        x, rfl, ?_, ?_⟩
      · obtain ⟨e', s'', v', hr', hx'⟩ := hh
        have := hr.symm.trans hr'
        cases this
        have := h6 p hp
        rw [key, hx'] at this
        cases this
      · exact decryptSeed_lt hC.phrase hf hx
      · exact hf.2.2.2

theorem unlocks_decode {L : WordList} (hL : L.Lawful) {C : Crypto} (hC : C.Lawful) {env : Env}
    {opts : InputFlags} {words unlocking : List Bytes} (h1 : inputWords L env opts = .ok words)
    (h2 : Unlocks (indexOf L) C.toPhraseCrypto words unlocking) (rest : List (Res Bytes)) (rnd : Bytes)
    (acts : List Act) :
    ∃ r, decodeMnemonicFromInput L C env opts ⟨unlocking.map .ok ++ rest, rnd, acts⟩ =
      (.ok r, ⟨rest, rnd, acts⟩) := by
  cases h2 with
  | plaintext h =>
    obtain ⟨dm, -, hrun⟩ := c55_plaintext hL C env opts words ((gets_iff hL).1 h1) _ _ h ⟨rest, rnd, acts⟩
    exact ⟨_, hrun⟩
  | @encrypted wrong right seed offset hw h =>
    obtain ⟨e, s, v, hr, hx⟩ := h
    have hwrong : ∀ p ∈ wrong, WrongPassword L C words p := by
      intro p hp
      refine ⟨e, s, v, offset, hr, ?_⟩
      cases hy : Spec.decryptSeed C.toPhraseCrypto p e s v offset with
      | none => rfl
      | some y => exact absurd ⟨e, s, v, hr, hy⟩ (hw p hp y offset)
    obtain ⟨dm, -, hrun⟩ := c55_first_right hL hC env opts words ((gets_iff hL).1 h1) wrong hwrong right seed
      ⟨e, s, v, offset, hr, hx⟩ rest rnd acts
    refine ⟨(⟨0, seed⟩, dm), ?_⟩
    rw [List.map_append, List.append_assoc]
    exact hrun

end Verif.Proofs
