import Verif.Spec.Failure
import Verif.Proofs.Words
import Verif.Props.Commands
import Verif.Proofs.CliRequest

/-!
# How programs end
-/

namespace Verif.Proofs

open Verif.Model Verif.Model.Cli Verif.Spec Verif.Props

/-- The program ends normally with `Q`, with an error in `E`, panics only if `P`, runs for ever only if
`D`. It may be waiting at a prompt. -/
def Run {α : Type} (x : Prog α) (st : St) (E : Err → Prop) (P D : Prop) (Q : α → St → Prop) : Prop :=
  match x st with
  | (.ok a, st') => Q a st'
  | (.err e, _) => E e
  | (.panic _, _) => P
  | (.waits _, _) => True
  | (.loops, _) => D

theorem run_bind {α β : Type} {x : Prog α} {f : α → Prog β} {st : St} {E : Err → Prop} {P D : Prop}
    {Q : α → St → Prop} {R : β → St → Prop} (hx : Run x st E P D Q)
    (hf : ∀ a st', Q a st' → Run (f a) st' E P D R) : Run (x >>= f) st E P D R := by
  change Run (Prog.bind x f) st E P D R
  unfold Run Prog.bind at *
  rcases h : x st with ⟨o, st'⟩
  rw [h] at hx
  cases o with
  | ok a => exact hf a st' hx
  | err e => exact hx
  | panic p => exact hx
  | waits c => exact hx
  | loops => exact hx

theorem run_lift {α : Type} {r : Res α} {st : St} {E : Err → Prop} {P D : Prop}
    (hp : ∀ p, r ≠ .panic p) (he : ∀ e, r = .err e → E e) :
    Run (lift r) st E P D (fun a st' => r = .ok a ∧ st' = st) := by
  unfold Run lift
  cases r with
  | ok a => exact ⟨rfl, rfl⟩
  | err e => exact he e rfl
  | panic p => exact absurd rfl (hp p)

theorem run_mono {α : Type} {x : Prog α} {st : St} {E E' : Err → Prop} {P P' D D' : Prop}
    {Q Q' : α → St → Prop} (h : Run x st E P D Q) (hE : ∀ e, E e → E' e) (hP : P → P') (hD : D → D')
    (hQ : ∀ a st', Q a st' → Q' a st') : Run x st E' P' D' Q' := by
  unfold Run at *
  rcases hx : x st with ⟨o, st'⟩
  rw [hx] at h
  cases o with
  | ok a => exact hQ a st' h
  | err e => exact hE e h
  | panic p => exact hP h
  | waits c => trivial
  | loops => exact hD h

theorem run_password {confirm : Bool} {st : St} {E : Err → Prop} {P D : Prop}
    (h : ∀ r ∈ st.prompts, PromptResult r) (he : ∀ e, .err e ∈ st.prompts → E e) :
    Run (userInputPassword confirm) st E P D (fun p st' => p ≠ [] ∧ st'.rnd = st.rnd ∧
      ∀ r ∈ st'.prompts, r ∈ st.prompts) := by
  unfold Run userInputPassword
  match hp : st.prompts with
  | [] => trivial
  | .ok p :: rest =>
    have := h (.ok p) (by rw [hp]; simp)
    cases this with
    | password hne => exact ⟨hne, rfl, fun r hr => by simp [hr]⟩
  | .err e :: rest => exact he e (by rw [hp]; simp)
  | .panic p :: rest =>
    have := h (.panic p) (by rw [hp]; simp)
    cases this

theorem run_random {α : Type} {f : Bytes → Res (α × Bytes)} {st : St} {E : Err → Prop} {P D : Prop}
    (hp : ∀ p, f st.rnd ≠ .panic p) (he : ∀ e, f st.rnd = .err e → E e) :
    Run (random f) st E P D (fun a st' => f st.rnd = .ok (a, st'.rnd) ∧ st'.prompts = st.prompts) := by
  unfold Run random
  cases h : f st.rnd with
  | ok x => exact ⟨by simp, rfl⟩
  | err e => exact he e h
  | panic p => exact absurd h (hp p)

/-! ## flags -/

theorem ttlOf_cases (f : KeyFlags) : (ttlOf f.ttl = .err .badDuration ∧ BadKeyFlags f .badDuration) ∨
    ∃ t, ttlOf f.ttl = .ok t ∧ (t < 0 → BadKeyFlags f .ttlInvalid) := by
  unfold ttlOf
  by_cases h0 : f.ttl = []
  · rw [if_neg (by simp [h0])]
    exact .inr ⟨0, rfl, by omega⟩
  · rw [if_pos h0]
    by_cases hq : ∃ q u, IsTTL f.ttl q u
    · obtain ⟨q, u, hq⟩ := hq
      refine .inr ⟨_, parseTTL_wrap hq, fun hneg => .negative hq ?_⟩
      generalize q * u * 10 ^ 9 = k at hneg ⊢
      unfold wrap64 at hneg
      omega
    · exact .inl ⟨(c43_accepts _).2 hq, .duration h0 hq⟩

theorem only_cases (f : KeyFlags) :
    (decodeOnlyKeyTypes f.only = .err .badOnlyElement ∧ BadKeyFlags f .badOnlyElement) ∨
    ∃ m s, decodeOnlyKeyTypes f.only = .ok (m, s) := by
  obtain ⟨elems, hl⟩ := c45_every_text f.only
  by_cases h : f.only = [] ∨ ∀ e ∈ elems, e ∈ ["master", "encryption", "authentication", "signing"].map str
  · obtain ⟨m, s, h, -⟩ := (c45_only _ _ hl).2 h
    exact .inr ⟨m, s, h⟩
  · rw [not_or] at h
    obtain ⟨h0, h⟩ := h
    push Not at h
    obtain ⟨e, he, hbad⟩ := h
    exact .inl ⟨(c45_only _ _ hl).1 h0 ⟨e, he, hbad⟩, .only h0 hl he hbad⟩

/-! ## the export -/

theorem encodePrivate_cases {C : Crypto} (hC : C.Lawful) (key : Pgp.ECKey) (password rnd : Bytes) :
    (∃ b rest, key.encodePrivate C password rnd = .ok (b, rest) ∧
      (password = [] → rest = rnd) ∧ rnd.length ≤ rest.length + 24) ∨
    (key.encodePrivate C password rnd = .err .randomRead ∧ password ≠ [] ∧ rnd.length < 24) := by
  by_cases h : Enough 1 password rnd
  · refine .inl ⟨_, _, encodePrivate_eq hC key password rnd h, ?_, ?_⟩
    · intro hp; simp [after, hp]
    · exact after_length password rnd
  · unfold Enough at h
    rw [not_or] at h
    refine .inr ⟨?_, h.1, by omega⟩
    unfold Pgp.ECKey.encodePrivate
    rw [if_pos (List.length_pos_of_ne_nil h.1)]
    unfold Pgp.encryptS2K Pgp.randRead
    by_cases h8 : rnd.length < 8
    · rw [if_pos h8]; rfl
    · rw [if_neg h8, Res.bind_ok]
      dsimp only
      rw [if_pos (by rw [List.length_drop]; omega)]
      rfl

/-- A result with the rest of the random source: it fails only for want of random bytes. -/
def Draws (n : Nat) (password rnd : Bytes) (r : Res (Bytes × Bytes)) : Prop :=
  (∃ b rest, r = .ok (b, rest) ∧ (password = [] → rest = rnd) ∧ rnd.length ≤ rest.length + 24 * n) ∨
  (r = .err .randomRead ∧ password ≠ [] ∧ rnd.length < 24 * n)

theorem draws_bind {n m : Nat} {password rnd : Bytes} {r : Res (Bytes × Bytes)}
    {f : Bytes × Bytes → Res (Bytes × Bytes)} (h : Draws n password rnd r)
    (hf : ∀ b rest, Draws m password rest (f (b, rest))) : Draws (n + m) password rnd (r >>= f) := by
  rcases h with ⟨b, rest, rfl, h1, h2⟩ | ⟨rfl, h1, h2⟩
  · rw [Res.bind_ok]
    rcases hf b rest with ⟨b', rest', e, h3, h4⟩ | ⟨e, h3, h4⟩
    · exact .inl ⟨b', rest', e, fun hp => by rw [h3 hp, h1 hp], by omega⟩
    · exact .inr ⟨e, h3, by omega⟩
  · exact .inr ⟨rfl, h1, by omega⟩

theorem draws_ok {password rnd : Bytes} (b : Bytes) : Draws 0 password rnd (.ok (b, rnd)) :=
  .inl ⟨b, rnd, rfl, fun _ => rfl, by omega⟩

theorem draws_mono {n m : Nat} {password rnd : Bytes} {r : Res (Bytes × Bytes)} (hnm : n ≤ m)
    (h : Draws n password rnd r) : Draws m password rnd r := by
  rcases h with ⟨b, rest, e, h1, h2⟩ | ⟨e, h1, h2⟩
  · exact .inl ⟨b, rest, e, h1, by omega⟩
  · exact .inr ⟨e, h1, by omega⟩

theorem draws_packet {C : Crypto} (hC : C.Lawful) (key : Pgp.ECKey) (tag : Byte) (password rnd : Bytes) :
    Draws 1 password rnd (key.encodePrivatePacket C tag password rnd) := by
  have h : Draws 1 password rnd (key.encodePrivate C password rnd) := by
    rcases encodePrivate_cases hC key password rnd with ⟨b, rest, e, h1, h2⟩ | ⟨e, h1, h2⟩
    · exact .inl ⟨b, rest, e, h1, by omega⟩
    · exact .inr ⟨e, h1, by omega⟩
  unfold Pgp.ECKey.encodePrivatePacket
  exact draws_bind (n := 1) (m := 0) h (fun b rest => draws_ok (Pgp.encodePacket tag b))

theorem draws_subkey {C : Crypto} (hC : C.Lawful) (m : Pgp.EdKey) (base : Pgp.ECKey) (flags : Byte)
    (expiry : Int) {sig} (h : m.bindSubkey C base flags expiry = .ok sig) (password rnd : Bytes) :
    Draws 1 password rnd (Pgp.encodeSubkeyPackets C m base flags expiry password rnd) := by
  refine draws_bind (draws_packet hC base _ password rnd) (m := 0) (fun b rest => ?_)
  dsimp only
  rw [h, Res.bind_ok]
  exact draws_ok _

theorem draws_all {C : Crypto} (hC : C.Lawful) (ks : Pgp.KeySet)
    (hs : ∀ k, ks.signingSubkey = some k → k.base.privateSigning = some k.priv) (password rnd : Bytes) :
    Draws 3 password rnd (ks.encodeAllSubkeyPackets C password rnd) := by
  have h1 : ∀ rnd, Draws 1 password rnd (ks.encodeEncryption C password rnd) := by
    intro rnd
    unfold Pgp.KeySet.encodeEncryption
    cases ks.encryptionSubkey with
    | none => exact draws_mono (by omega) (draws_ok _)
    | some k => exact draws_subkey hC _ _ _ _ (bindSubkey_plain hC _ _ _ _ (by decide)) _ _
  have h2 : ∀ rnd, Draws 1 password rnd (ks.encodeAuthentication C password rnd) := by
    intro rnd
    unfold Pgp.KeySet.encodeAuthentication
    cases ks.authenticationSubkey with
    | none => exact draws_mono (by omega) (draws_ok _)
    | some k => exact draws_subkey hC _ _ _ _ (bindSubkey_plain hC _ _ _ _ (by decide)) _ _
  have h3 : ∀ rnd, Draws 1 password rnd (ks.encodeSigning C password rnd) := by
    intro rnd
    unfold Pgp.KeySet.encodeSigning
    cases hk : ks.signingSubkey with
    | none => exact draws_mono (by omega) (draws_ok _)
    | some k => exact draws_subkey hC _ _ _ _ (bindSubkey_sign hC _ _ k.priv _ (hs k hk)) _ _
  unfold Pgp.KeySet.encodeAllSubkeyPackets
  refine draws_bind (n := 1) (m := 2) (h1 rnd) (fun b rest => ?_)
  refine draws_bind (n := 1) (m := 1) (h2 rest) (fun b' rest => ?_)
  refine draws_bind (n := 1) (m := 0) (h3 rest) (fun b'' rest => ?_)
  dsimp only
  obtain ⟨order, -, hf⟩ := shuffle_perm (C.shuffleDraw (Pgp.shuffleSeed C ks.masterKey.priv))
    (hC.shuffle_le _) 2 [0, 1, 2] (by simp)
  have := hf (fun i => [b, b', b''].getD i [])
  simp only [List.map_cons, List.map_nil] at this
  simp only [List.length_cons, List.length_nil]
  change Draws 0 password rest (Pgp.shuffleLoop _ 2 [b, b', b''] >>= _)
  rw [show Pgp.shuffleLoop (C.shuffleDraw (Pgp.shuffleSeed C ks.masterKey.priv)) 2 [b, b', b''] = _ from this]
  exact draws_ok _

theorem draws_export {C : Crypto} (hC : C.Lawful) {n : Int} {s : Seed} (hs : newSeed 0 n = .ok s)
    {creation : Int} {o : Option KeyOptions} {mnk : Mnemonikey} (h : new C s creation o = .ok mnk)
    (password rnd : Bytes) :
    Draws 4 password rnd (mnk.encodePGP C password rnd) ∧
    ∀ cert, Draws 4 password rnd (mnk.encodeSubkeysPGP C password cert rnd) := by
  obtain ⟨second, -, -, -, -, -, -, rfl⟩ := new_shape hC hs h
  have hsig : ∀ k, (keySetOf C n.natAbs second (second * 10 ^ 9)
      (expiryOf (second * 10 ^ 9) (o.getD KeyOptions.zero).ttl) (o.getD KeyOptions.zero)).signingSubkey = some k →
      k.base.privateSigning = some k.priv := by
    intro k hk
    simp only [keySetOf] at hk
    split at hk
    · cases hk; rfl
    · cases hk
  constructor
  · unfold Mnemonikey.encodePGP Pgp.KeySet.encodePackets
    refine draws_bind (n := 1) (m := 3) (draws_packet hC _ _ _ _) (fun b rest => ?_)
    dsimp only
    unfold Pgp.KeySet.encodeSelfCertification
    rw [selfCertify_eq hC, Res.bind_ok, Res.bind_ok]
    exact draws_bind (n := 3) (m := 0) (draws_all hC _ hsig _ _) (fun b rest => draws_ok _)
  · intro cert
    unfold Mnemonikey.encodeSubkeysPGP Pgp.KeySet.encodeSubkeyPackets Pgp.KeySet.encodeSelfCertification
    refine draws_mono (n := 3) (by omega) ?_
    rw [selfCertify_eq hC]
    cases cert <;>
    · simp only [Res.bind_ok, if_true, Bool.false_eq_true, if_false]
      exact draws_bind (n := 3) (m := 0) (draws_all hC _ hsig _ _) (fun b rest => draws_ok _)

/-! ## the input -/

theorem complete_error {L : WordList} (hL : L.Lawful) {ws : List Bytes} {e : Err} (hc : Complete L.word ws)
    (h : readPhrase (fun w => L.lookup (L.toLower w)) ws = .error e) : e = .invalidChecksum := by
  obtain ⟨hall, w, rest, rfl, hn⟩ := hc
  have hidx : ∀ x ∈ w :: rest, ∃ j, j < 4096 ∧ L.word j = x ∧ L.lookup (L.toLower x) = some j := by
    intro x hx
    obtain ⟨j, hj, rfl⟩ := hall x hx
    exact ⟨j, hj, rfl, by rw [hL.lower_word hj]; exact (hL.lookup_iff _ _).mpr ⟨hj, rfl⟩⟩
  obtain ⟨i, hi, hiw, hix⟩ := hidx w List.mem_cons_self
  have hver : val ((bits 12 i).take 4) = i / 256 := by
    rw [take_bits i (by norm_num), val_bits]
    omega
  have hsize : i / 256 = 0 ∧ (w :: rest).length = 14 ∨ i / 256 = 1 ∧ (w :: rest).length = 16 := by
    generalize hw : w = w' at hn
    generalize hlen : (w' :: rest).length = n at hn
    have : ∀ j, L.word j = w' → j < 4096 → j = i := by
      intro j hj hlt
      have h1 := (hL.lookup_iff w' j).mpr ⟨hlt, hj⟩
      have h2 := (hL.lookup_iff w' i).mpr ⟨hi, by rw [hiw, hw]⟩
      rw [h1] at h2
      exact Option.some.inj h2
    generalize hw2 : w' = w2 at hn
    cases hn with
    | plaintext j hj =>
      have := this j hw2.symm (by omega)
      subst this
      exact .inl ⟨hj, rfl⟩
    | encrypted j hj =>
      have := this j hw2.symm (by omega)
      subst this
      exact .inr ⟨hj, rfl⟩
  have hm : (w :: rest).mapM (fun w => L.lookup (L.toLower w)) ≠ none := by
    rw [Ne, mapM_eq_none_iff']
    rintro ⟨x, hx, h0⟩
    obtain ⟨j, -, -, h1⟩ := hidx x hx
    rw [h1] at h0; cases h0
  unfold readPhrase at h
  dsimp only at h
  rw [hix] at h
  dsimp only at h
  rw [hver] at h
  rw [if_neg (by omega), if_neg (by rcases hsize with ⟨a, b⟩ | ⟨a, b⟩ <;> simp [a, b])] at h
  cases hmm : (w :: rest).mapM (fun w => L.lookup (L.toLower w)) with
  | none => exact absurd hmm hm
  | some is =>
    rw [hmm] at h
    dsimp only at h
    split at h
    · cases h; rfl
    · split at h <;> cases h

theorem readLoop_cases {L : WordList} (hL : L.Lawful) : ∀ (ts acc : List Bytes),
    (∃ ws, readLoop L acc ts = .ok ws) ∨
    (readLoop L acc ts = .err .fileBadWord ∧ ∃ t ∈ ts, ¬ IsWord L.word (L.toLower t)) ∨
    (readLoop L acc ts = .err .fileBadFormat ∧ 100 < acc.length + ts.length)
  | [], acc => .inl ⟨acc, rfl⟩
  | t :: ts, acc => by
    rw [readLoop]
    dsimp only
    split
    · rename_i h0
      refine .inr (.inl ⟨rfl, t, List.mem_cons_self, ?_⟩)
      rintro ⟨j, hj, he⟩
      rw [(hL.lookup_iff _ j).mpr ⟨hj, he⟩] at h0
      cases h0
    · split
      · rename_i hlen
        refine .inr (.inr ⟨rfl, ?_⟩)
        simp only [List.length_append, List.length_singleton] at hlen
        simp only [List.length_cons]
        omega
      · rcases readLoop_cases hL ts (acc ++ [L.toLower t]) with ⟨ws, h⟩ | ⟨h, x, hx, hb⟩ | ⟨h, hl⟩
        · exact .inl ⟨ws, h⟩
        · exact .inr (.inl ⟨h, x, List.mem_cons_of_mem _ hx, hb⟩)
        · refine .inr (.inr ⟨h, ?_⟩)
          simp only [List.length_append, List.length_singleton] at hl
          simp only [List.length_cons]
          omega

theorem inputWords_cases {L : WordList} (hL : L.Lawful) (env : Env) (input : InputFlags) :
    (∃ ws, inputWords L env input = .ok ws ∧ (Complete L.word ws ∨
      input.inputWordFile = [] ∧ byLine env input = false ∧ 68 ∈ env.stdin)) ∨
    ∃ e, inputWords L env input = .err e ∧ InputFails L (offer L) env input e := by
  unfold inputWords
  by_cases hf : input.inputWordFile = []
  · rw [if_neg (by simp [hf])]
    by_cases hs : byLine env input = true
    · have hl := lines_iff hL env.stdin .ended
      rw [if_pos hs]
      rw [c50_simple hL] at hl ⊢
      cases hw : simpleWanted L.word ((scanLines env.stdin).map (fun line => L.toLower (trimSpace line))) with
      | none => exact .inr ⟨_, rfl, .linesEnd hf hs (hl.1 (by rw [hw]; rfl))⟩
      | some ws => exact .inl ⟨ws, rfl, .inl (simpleWanted_complete hL hw).1⟩
    · rw [if_neg hs]
      have hs : byLine env input = false := by simpa using hs
      obtain ⟨used, -, h⟩ := keyLoop_inv hL env.stdin 0 .start (keyInv_start L)
      change userInputMnemonic L env.stdin = _ ∨ KeyDone L _ (userInputMnemonic L env.stdin) at h
      by_cases h68 : 68 ∈ env.stdin
      · rcases h with h | h | ⟨ws, h, -⟩
        · exact .inr ⟨_, h, .keysEnd hf hs ((keys_iff hL _ _).1 h)⟩
        · exact .inr ⟨_, h, .aborted hf hs ((keys_iff hL _ _).1 h)⟩
        · exact .inl ⟨ws, h, .inr ⟨hf, hs, h68⟩⟩
      · rcases h with h | h | ⟨ws, h, -⟩
        · exact .inr ⟨_, h, .keysEnd hf hs ((keys_iff hL _ _).1 h)⟩
        · exact .inr ⟨_, h, .aborted hf hs ((keys_iff hL _ _).1 h)⟩
        · refine .inl ⟨ws, h, .inl ?_⟩
          have := c51_no_left_arrow hL env.stdin h68
          simpa [h] using this
  · rw [if_pos hf]
    cases hc : env.fs.read input.inputWordFile with
    | none => exact .inr ⟨_, rfl, .noFile hf hc⟩
    | some content =>
      by_cases hok : ∃ ws, readWordFile L (some content) = .ok ws
      · obtain ⟨ws, hok⟩ := hok
        exact .inl ⟨ws, hok, .inl ((readWordFile_iff hL content ws).1 hok).2⟩
      · right
        have hnc : ¬ Complete L.word ((scanWords content).map L.toLower) := fun h =>
          hok ⟨_, (readWordFile_iff hL content _).2 ⟨rfl, h⟩⟩
        unfold readWordFile at hok ⊢
        dsimp only at hok ⊢
        rcases readLoop_cases hL (scanWords content) [] with ⟨ws, h⟩ | ⟨h, x, hx, hb⟩ | ⟨h, hl⟩
        · obtain ⟨he, hall⟩ := readLoop_ok hL _ _ _ h
          rw [List.nil_append] at he
          rw [h, Res.bind_ok] at hok ⊢
          match hws : ws with
          | [] =>
            exact ⟨_, rfl, .fileNoWords hf hc (words_iff.2 (List.map_eq_nil_iff.1 he.symm))⟩
          | first :: rest =>
            dsimp only at hok ⊢
            by_cases hlen : (first :: rest).length ≠ mnemonicSize (parseMnemonicVersionRaw L first).1
            · rw [if_pos hlen]
              refine ⟨_, rfl, .fileWordCount hf hc (words_iff.2 rfl) ?_ hall hnc⟩
              intro h0
              rw [h0] at he
              cases he
            · rw [if_neg hlen] at hok
              exact absurd ⟨_, rfl⟩ hok
        · rw [h]
          exact ⟨_, rfl, .fileBadWord hf hc (words_iff.2 rfl) hx hb⟩
        · rw [h]
          exact ⟨_, rfl, .fileTooLong hf hc (words_iff.2 rfl) (by simpa using hl)⟩

theorem decryptSeed_lt {C : PhraseCrypto} (hC : C.Lawful) {password : Bytes} {e s v off n : Nat}
    (hfit : (Contents.encrypted e s v off).Fits) (h : Spec.decryptSeed C password e s v off = some n) :
    n < 2 ^ 128 := by
  obtain ⟨he, hs, hv, ho⟩ := hfit
  have hkl : (Model.phraseKey C password s off).length = 17 := hC.argon2id_length ..
  have hkl' : ((Model.phraseKey C password s off).take 16).length = 16 := by simp [hkl]
  rw [Spec.decryptSeed, spec_phraseKey C password hs ho] at h
  split at h
  · cases h
    rw [valueOfBytes_eq, toBytes_bits _ _ he]
    have := setBytes_lt (C.aesDec ((Model.phraseKey C password s off).take 16) (beBytes 16 e))
    rw [hC.aesDec_length _ _ hkl' (beBytes_length _ _)] at this
    exact lt_of_lt_of_le this (by norm_num)
  · cases h

/-- The prompts still to be answered are some of those of the beginning. -/
def Fewer (st' st : St) : Prop := ∀ r ∈ st'.prompts, r ∈ st.prompts

theorem passwordLoop_cases {C : Crypto} (hC : C.Lawful) {e s v off : Nat}
    (hfit : (Contents.encrypted e s v off).Fits) : ∀ (ps : List (Res Bytes)), (∀ r ∈ ps, PromptResult r) →
    (passwordLoop C (decodedOf (.encrypted e s v off)) ps).1 = .waits false ∨
    (∃ x, (passwordLoop C (decodedOf (.encrypted e s v off)) ps).1 = .err x ∧ .err x ∈ ps) ∨
    ∃ n : Nat, n < 2 ^ 128 ∧ (passwordLoop C (decodedOf (.encrypted e s v off)) ps).1 = .ok ⟨0, (n : Int)⟩ ∧
      ∀ r ∈ (passwordLoop C (decodedOf (.encrypted e s v off)) ps).2, r ∈ ps
  | [], _ => .inl rfl
  | .err x :: ps, _ => .inr (.inl ⟨x, rfl, List.mem_cons_self⟩)
  | .panic p :: ps, h => by cases h _ List.mem_cons_self
  | .ok p :: ps, h => by
    rw [passwordLoop, decryptSeed_spec hC.phrase p hfit]
    cases hd : Spec.decryptSeed C.toPhraseCrypto p e s v off with
    | none =>
      dsimp only
      rcases passwordLoop_cases hC hfit ps (fun r hr => h r (List.mem_cons_of_mem _ hr)) with
        h1 | ⟨x, h1, h2⟩ | ⟨n, h1, h2, h3⟩
      · exact .inl h1
      · exact .inr (.inl ⟨x, h1, List.mem_cons_of_mem _ h2⟩)
      · exact .inr (.inr ⟨n, h1, h2, fun r hr => List.mem_cons_of_mem _ (h3 r hr)⟩)
    | some n =>
      dsimp only
      refine .inr (.inr ⟨n, ?_, rfl, fun r hr => List.mem_cons_of_mem _ hr⟩)
      exact decryptSeed_lt hC.phrase hfit hd

theorem run_decode {L : WordList} (hL : L.Lawful) {C : Crypto} (hC : C.Lawful) (env : Env)
    (input : InputFlags) {st : St} (hps : ∀ r ∈ st.prompts, PromptResult r) {E : Err → Prop} {P D : Prop}
    (hE : ∀ e, InputFails L (offer L) env input e → E e) (hE' : ∀ e, .err e ∈ st.prompts → E e) :
    Run (decodeMnemonicFromInput L C env input) st E P D (fun r st' => Fewer st' st ∧ st'.rnd = st.rnd ∧
      ∃ n : Nat, n < 2 ^ 128 ∧ r.1 = ⟨0, (n : Int)⟩ ∧ r.2.creationOffset < 2 ^ 31 ∧
      (input.inputWordFile ≠ [] → env.fs.read input.inputWordFile ≠ none)) := by
  have hread : ∀ ws, inputWords L env input = .ok ws → input.inputWordFile ≠ [] →
      env.fs.read input.inputWordFile ≠ none := by
    intro ws h h0 hn
    unfold inputWords at h
    rw [if_pos h0, hn] at h
    cases h
  unfold decodeMnemonicFromInput
  refine run_bind (run_lift ?_ ?_) ?_
  · intro p hp
    rcases inputWords_cases hL env input with ⟨ws, h, -⟩ | ⟨e, h, -⟩ <;> rw [h] at hp <;> cases hp
  · intro e he
    rcases inputWords_cases hL env input with ⟨ws, h, -⟩ | ⟨e', h, hf⟩
    · rw [h] at he; cases he
    · rw [h] at he; cases he; exact hE _ hf
  rintro ws st1 ⟨hws, rfl⟩
  have hcase : Complete L.word ws ∨ input.inputWordFile = [] ∧ byLine env input = false ∧ 68 ∈ env.stdin := by
    rcases inputWords_cases hL env input with ⟨ws', h, hc⟩ | ⟨e, h, -⟩
    · rw [hws] at h; cases h; exact hc
    · rw [hws] at h; cases h
  refine run_bind (run_lift ?_ ?_) ?_
  · intro p hp
    rcases c03_decode_total hL ws with ⟨e, h⟩ | ⟨dm, h, -⟩ <;> rw [h] at hp <;> cases hp
  · intro e he
    rw [decodeMnemonic_spec hL] at he
    cases hr : readPhrase (fun w => L.lookup (L.toLower w)) ws with
    | ok c => rw [hr] at he; cases he
    | error x =>
      rw [hr] at he
      have : x = e := by cases he; rfl
      subst this
      rcases hcase with hc | ⟨h1, h2, h3⟩
      · have := complete_error hL hc hr
        subst this
        exact hE _ (.checksum ((gets_iff hL).1 hws) hr)
      · exact hE _ (.leftArrow h1 h2 h3 ((gets_iff hL).1 hws) hr)
  rintro dm st2 ⟨hdm, rfl⟩
  obtain ⟨c, hfit, rfl, -, -⟩ := decode_ok_words hL hdm
  refine run_bind (Q := fun s st' => Fewer st' st2 ∧ st'.rnd = st2.rnd ∧ ∃ n : Nat, n < 2 ^ 128 ∧
    s = ⟨0, (n : Int)⟩) ?_ ?_
  · cases c with
    | plaintext s o =>
      have h2 : (decodedOf (.plaintext s o)).decryptSeed C.toPhraseCrypto [] = .ok ⟨0, (s : Int)⟩ :=
        (newSeed_ok_iff 0 s _).mpr ⟨rfl, by simpa using hfit.1, rfl⟩
      have h3 : askSeed C (decodedOf (.plaintext s o)) st2 = (.ok ⟨0, (s : Int)⟩, st2) := by
        unfold askSeed
        rw [seedLoop_plain rfl h2]
      unfold Run
      rw [h3]
      exact ⟨fun r hr => hr, rfl, s, hfit.1, rfl⟩
    | encrypted e s v o =>
      have h3 : askSeed C (decodedOf (.encrypted e s v o)) st2 =
        ((passwordLoop C (decodedOf (.encrypted e s v o)) st2.prompts).1,
          { st2 with prompts := (passwordLoop C (decodedOf (.encrypted e s v o)) st2.prompts).2 }) := rfl
      unfold Run
      rw [h3]
      rcases passwordLoop_cases hC hfit st2.prompts hps with h1 | ⟨x, h1, h2⟩ | ⟨n, hn, h1, h2⟩
      · rw [h1]; trivial
      · rw [h1]; exact hE' _ h2
      · rw [h1]
        exact ⟨h2, rfl, n, hn, rfl⟩
  · rintro s st' ⟨h1, h2, n, hn, rfl⟩
    refine ⟨h1, h2, n, hn, rfl, ?_, hread ws hws⟩
    cases c with
    | plaintext s o => exact hfit.2
    | encrypted e s v o => exact hfit.2.2.2

/-! ## parts of the commands -/

theorem run_pure {α : Type} {a : α} {st : St} {E : Err → Prop} {P D : Prop} :
    Run (pure a : Prog α) st E P D (fun b st' => b = a ∧ st' = st) := ⟨rfl, rfl⟩

theorem run_emit {acts : List Act} {st : St} {E : Err → Prop} {P D : Prop} :
    Run (emit acts) st E P D (fun _ st' => st'.prompts = st.prompts ∧ st'.rnd = st.rnd) := ⟨rfl, rfl⟩

theorem run_print (env : Env) (words : List Bytes) {st : St} {E : Err → Prop} {P D : Prop}
    (hP : env.columns < 2 → P) (hD : 2 ≤ env.columns → env.columns < 17 → D) :
    Run (printMnemonic env words) st E P D (fun _ _ => True) := by
  obtain ⟨h1, h2, h3⟩ := c57_phrase_notice env.columns
  unfold Run printMnemonic
  dsimp only
  by_cases ha : env.columns < 2
  · rw [show justifyTerminalWidth 19 env.columns 0 notice = _ from h3 ha 19]
    exact hP ha
  · by_cases hb : env.columns < 17
    · rw [show justifyTerminalWidth 19 env.columns 0 notice = _ from h2 (by omega) hb 19]
      exact hD (by omega) hb
    · obtain ⟨out, h⟩ := h1 (by omega)
      rw [show justifyTerminalWidth 19 env.columns 0 notice = _ from h 19 (by omega)]
      trivial

theorem run_save (env : Env) (words : List Bytes) (path : Bytes) {st : St} {E : Err → Prop} {P D : Prop}
    (hE : ∀ e, SaveFails env path e → (env.fs.read path ≠ none → e = .fileExists ∨ e = .fileInaccessible) →
      E e) :
    Run (save env words path) st E P D (fun _ _ => env.fs.read path = none) := by
  have hread : env.fs.read path = none ↔ ¬ (env.fs.dir path).isSome = true := by
    unfold FS.read
    cases env.fs.dir path <;> simp
  unfold save
  refine run_bind run_emit (fun _ st' _ => run_mono (E := E) (P := P) (D := D) (run_lift ?_ ?_)
    (fun _ h => h) id id ?_)
  · intro p hp
    unfold saveMnemonic at hp
    split at hp
    · cases hp
    · split at hp
      · cases hp
      · split at hp
        · cases hp
        · dsimp only at hp
          split at hp <;> cases hp
  · intro e he
    unfold saveMnemonic at he
    split at he
    · rename_i h
      cases he
      exact hE _ (.unknown h) (fun _ => .inr rfl)
    · split at he
      · rename_i h
        cases he
        refine hE _ (.exists fun h0 => ?_) (fun _ => .inl rfl)
        exact hread.1 h0 h
      · rename_i h
        have h0 := hread.2 h
        split at he
        · rename_i h1
          cases he
          exact hE _ (.refused h0 (.inl h1)) (fun h => absurd h0 h)
        · dsimp only at he
          split at he
          · rename_i k hk
            cases he
            exact hE _ (.refused h0 (.inr (by rw [hk]; simp))) (fun h => absurd h0 h)
          · cases he
  · rintro u st'' ⟨h, -⟩
    refine hread.2 fun hsome => ?_
    unfold saveMnemonic at h
    split at h
    · cases h
    · cases h

theorem run_keyPassword {b : Bool} {st : St} (h : ∀ r ∈ st.prompts, PromptResult r) {E : Err → Prop}
    {P D : Prop} (hE : b = true → ∀ e, .err e ∈ st.prompts → E e) :
    Run (keyPassword b) st E P D (fun p st' => (p = [] ↔ b = false) ∧ st'.rnd = st.rnd ∧ Fewer st' st) := by
  unfold keyPassword
  cases b with
  | true =>
    rw [if_pos rfl]
    refine run_mono (run_password h (hE rfl)) (fun _ h => h) id id ?_
    rintro p st' ⟨h1, h2, h3⟩
    exact ⟨by simp [h1], h2, h3⟩
  | false =>
    rw [if_neg (by decide)]
    refine run_mono run_pure (fun _ h => h) id id ?_
    rintro p st' ⟨rfl, rfl⟩
    exact ⟨by simp, rfl, fun r hr => hr⟩

theorem run_draws {n : Nat} {password : Bytes} {f : Bytes → Res (Bytes × Bytes)} {st : St} {E : Err → Prop}
    {P D : Prop} (h : Draws n password st.rnd (f st.rnd))
    (hE : password ≠ [] → st.rnd.length < 24 * n → E .randomRead) :
    Run (random f) st E P D (fun _ st' => (password = [] → st'.rnd = st.rnd) ∧
      st.rnd.length ≤ st'.rnd.length + 24 * n ∧ Fewer st' st) := by
  refine run_mono (run_random ?_ ?_) (fun _ h => h) id id ?_
  · intro p hp
    rcases h with ⟨b, rest, h, -⟩ | ⟨h, -⟩ <;> rw [h] at hp <;> cases hp
  · intro e he
    rcases h with ⟨b, rest, h, -⟩ | ⟨h, h1, h2⟩
    · rw [h] at he; cases he
    · rw [h] at he; cases he; exact hE h1 h2
  · rintro b st' ⟨h1, h2⟩
    rcases h with ⟨b', rest, h, h3, h4⟩ | ⟨h, -⟩
    · rw [h] at h1
      cases h1
      exact ⟨h3, h4, by unfold Fewer; rw [h2]; exact fun r hr => hr⟩
    · rw [h] at h1; cases h1

theorem run_export {C : Crypto} (hC : C.Lawful) {n : Int} {s : Seed} (hs : newSeed 0 n = .ok s)
    {creation : Int} {o : Option KeyOptions} {mnk : Mnemonikey} (h : new C s creation o = .ok mnk)
    (master cert : Bool) (password : Bytes) {st : St} {E : Err → Prop} {P D : Prop}
    (hE : password ≠ [] → st.rnd.length < 96 → E .randomRead) :
    Run (exportKey C mnk master cert password) st E P D (fun _ st' => (password = [] → st'.rnd = st.rnd) ∧
      st.rnd.length ≤ st'.rnd.length + 96 ∧ Fewer st' st) := by
  obtain ⟨h1, h2⟩ := draws_export hC hs h password st.rnd
  unfold exportKey
  split
  · exact run_draws h1 hE
  · exact run_draws (h2 cert) hE

/-- The words of the phrase, by a function `plain` or, with a password, `enc` -/
theorem run_words {enc : Bytes → Bytes → Res (List Bytes × Bytes)} {plain : Res (List Bytes)} {b : Bool}
    {st : St} (h : ∀ r ∈ st.prompts, PromptResult r) {E : Err → Prop} {P D : Prop}
    (hplain : ∃ ws, plain = .ok ws)
    (henc : ∀ pw rnd, pw ≠ [] → 3 ≤ rnd.length → ∃ ws rest, enc pw rnd = .ok (ws, rest))
    (hshort : ∀ pw rnd, pw ≠ [] → rnd.length < 3 → enc pw rnd = .err .randomRead)
    (hE : b = true → ∀ e, .err e ∈ st.prompts → E e) (hr : b = true → st.rnd.length < 3 → E .randomRead) :
    Run (if b then do
      let pw ← userInputPassword true
      random (enc pw)
    else lift plain : Prog (List Bytes)) st E P D (fun _ _ => True) := by
  cases b with
  | true =>
    rw [if_pos rfl]
    refine run_bind (run_password h (hE rfl)) ?_
    rintro pw st' ⟨hp, h2, h3⟩
    refine run_mono (run_random ?_ ?_) (fun _ h => h) id id (fun _ _ _ => trivial)
    · intro p hpan
      by_cases hl : st'.rnd.length < 3
      · rw [hshort pw _ hp hl] at hpan; cases hpan
      · obtain ⟨ws, rest, he⟩ := henc pw st'.rnd hp (by omega)
        rw [he] at hpan; cases hpan
    · intro e he
      by_cases hl : st'.rnd.length < 3
      · rw [hshort pw _ hp hl] at he
        cases he
        exact hr rfl (by rw [← h2]; exact hl)
      · obtain ⟨ws, rest, he'⟩ := henc pw st'.rnd hp (by omega)
        rw [he'] at he; cases he
  | false =>
    rw [if_neg (by decide)]
    obtain ⟨ws, hw⟩ := hplain
    refine run_mono (run_lift ?_ ?_) (fun _ h => h) id id (fun _ _ _ => trivial)
    · intro p hp; rw [hw] at hp; cases hp
    · intro e he; rw [hw] at he; cases he

theorem mnk_short {L : WordList} {C : Crypto} (hC : C.Lawful) {x : Nat} {s : Seed}
    (hs : newSeed 0 (x : Int) = .ok s) {now : Int} {o : Option KeyOptions} {mnk : Mnemonikey}
    (h : new C s now o = .ok mnk) (pw rnd : Bytes) (hp : pw ≠ []) (hr : rnd.length < 3) :
    mnk.encodeMnemonicEncrypted L C pw rnd = .err .randomRead := by
  have hseed := new_seed hC hs h
  obtain ⟨-, -, rfl⟩ := (newSeed_ok_iff _ _ _).1 hs
  unfold Mnemonikey.encodeMnemonicEncrypted
  rw [hseed]
  exact c09_short_random L C.toPhraseCrypto x _ pw hp rnd hr

theorem fewer_trans {a b c : St} (h1 : Fewer a b) (h2 : Fewer b c) : Fewer a c := fun r hr => h2 r (h1 r hr)

/-! ## the commands -/

theorem valueOfBytes_lt {b : Bytes} (h : b.length = 16) : valueOfBytes b < 2 ^ 128 := by
  rw [valueOfBytes_eq]
  have := setBytes_lt b
  rw [h] at this
  exact lt_of_lt_of_le this (by norm_num)

theorem run_seedOf (env : Env) (u : Bytes) {st : St} {E : Err → Prop} {P D : Prop}
    (h1 : u ≠ [] → u ≠ str "-" → env.fs.read u = none → E .noEntropyFile)
    (h2 : u = str "-" → env.stdin.length < 16 → E .randomRead)
    (h3 : ∀ content, u ≠ [] → u ≠ str "-" → env.fs.read u = some content → content.length < 16 →
      E .randomRead)
    (h4 : u = [] → st.rnd.length < 16 → E .randomRead) :
    Run (seedOf env u) st E P D (fun s st' => (∃ n : Nat, newSeed 0 (n : Int) = .ok s) ∧
      st.rnd.length ≤ st'.rnd.length + (if u = [] then 16 else 0) ∧ Fewer st' st) := by
  have hseed : ∀ b : Bytes, 16 ≤ b.length → ∃ n : Nat,
      newSeed 0 (n : Int) = .ok ⟨0, (valueOfBytes (b.take 16) : Nat)⟩ := by
    intro b hb
    refine ⟨valueOfBytes (b.take 16), (newSeed_ok_iff _ _ _).2 ⟨rfl, ?_, rfl⟩⟩
    simpa using valueOfBytes_lt (b := b.take 16) (by rw [List.length_take]; omega)
  have hgen : ∀ b : Bytes, 16 ≤ b.length →
      generateSeed b = .ok (⟨0, (valueOfBytes (b.take 16) : Nat)⟩, b.drop 16) := by
    intro b hb
    rw [c14_generate_seed, if_neg (by omega)]
  have hgen' : ∀ b : Bytes, b.length < 16 → generateSeed b = .err .randomRead := by
    intro b hb
    rw [c14_generate_seed, if_pos hb]
  have hsrc : ∀ b : Bytes, (b.length < 16 → E .randomRead) →
      Run (lift (do let (seed, _) ← generateSeed b; .ok seed : Res Seed)) st E P D
        (fun s st' => (∃ n : Nat, newSeed 0 (n : Int) = .ok s) ∧
          st.rnd.length ≤ st'.rnd.length + (if u = [] then 16 else 0) ∧ Fewer st' st) := by
    intro b hb
    by_cases hl : b.length < 16
    · rw [hgen' b hl]
      exact hb hl
    · rw [hgen b (by omega)]
      exact ⟨hseed b (by omega), by omega, fun r hr => hr⟩
  unfold seedOf
  by_cases h0 : u = []
  · rw [if_neg (by simp [h0])]
    by_cases hl : st.rnd.length < 16
    · unfold Run random
      rw [hgen' _ hl]
      exact h4 h0 hl
    · unfold Run random
      rw [hgen _ (by omega)]
      refine ⟨hseed _ (by omega), ?_, fun r hr => hr⟩
      rw [if_pos h0]
      simp only [List.length_drop]
      omega
  · rw [if_pos h0]
    by_cases hd : u = str "-"
    · rw [if_pos hd]
      exact hsrc env.stdin (h2 hd)
    · rw [if_neg hd]
      cases hc : env.fs.read u with
      | none => exact h1 h0 hd hc
      | some content => exact hsrc content (h3 content h0 hd hc)

theorem runs_generate {L : WordList} (hL : L.Lawful) {C : Crypto} (hC : C.Lawful) (env : Env)
    (opts : GenerateOptions) (prompts : List (Res Bytes)) (rnd : Bytes) (acts : List Act)
    (hps : ∀ r ∈ prompts, PromptResult r) :
    Run (generateAndPrintKey L C env opts) ⟨prompts, rnd, acts⟩ (GenerateFails env opts prompts rnd)
      (opts.outputWordFile = [] ∧ env.columns < 2)
      (opts.outputWordFile = [] ∧ 2 ≤ env.columns ∧ env.columns < 17) (fun _ _ => True) := by
  unfold generateAndPrintKey
  refine run_bind (run_lift ?_ ?_) ?_
  · intro p hp
    rcases ttlOf_cases opts.key with ⟨h, -⟩ | ⟨t, h, -⟩ <;> rw [h] at hp <;> cases hp
  · intro e he
    rcases ttlOf_cases opts.key with ⟨h, hb⟩ | ⟨t, h, -⟩
    · rw [h] at he; cases he; exact .flags hb
    · rw [h] at he; cases he
  rintro ttl st0 ⟨httl, rfl⟩
  have hneg : ttl < 0 → BadKeyFlags opts.key .ttlInvalid := by
    rcases ttlOf_cases opts.key with ⟨h, -⟩ | ⟨t, h, hb⟩
    · rw [h] at httl; cases httl
    · rw [h] at httl; cases httl; exact hb
  refine run_bind (run_lift ?_ ?_) ?_
  · intro p hp
    rcases only_cases opts.key with ⟨h, -⟩ | ⟨m, s, h⟩ <;> rw [h] at hp <;> cases hp
  · intro e he
    rcases only_cases opts.key with ⟨h, hb⟩ | ⟨m, s, h⟩
    · rw [h] at he; cases he; exact .flags hb
    · rw [h] at he; cases he
  rintro ⟨master, subkeys⟩ st0 ⟨-, rfl⟩
  dsimp only
  refine run_bind (run_seedOf env opts.unsafeEntropy .noEntropyFile .shortStdin
    (fun c a b d => .shortFile a b d) ?_) ?_
  · intro h hl
    refine .random ?_
    unfold generateNeeds
    rw [if_pos h]
    change rnd.length < 16 at hl
    omega
  rintro s st1 ⟨⟨n, hs⟩, hr1, hf1⟩
  change rnd.length ≤ _ at hr1
  have hnat : s.value.natAbs < 2 ^ 128 ∧ s.era = 0 := by
    obtain ⟨-, h, rfl⟩ := (newSeed_ok_iff _ _ _).1 hs
    exact ⟨h, rfl⟩
  refine run_bind (run_lift ?_ ?_) ?_
  · intro p hp
    rw [new_eq hC s hnat.1] at hp
    split at hp
    · cases hp
    · split at hp
      · cases hp
      · split at hp
        · cases hp
        · split at hp <;> cases hp
  · intro e he
    rw [new_eq hC s hnat.1, if_neg (by simp [hnat.2])] at he
    split at he
    · rename_i h
      cases he
      exact .flags (hneg h)
    · split at he
      · rename_i h
        cases he
        rw [maxCreation_eq] at h
        exact .late h
      · split at he
        · rename_i h
          cases he
          rw [epochStart_eq] at h
          exact .early h
        · cases he
  rintro mnk st2 ⟨hmnk, rfl⟩
  have hps1 : ∀ r ∈ st2.prompts, PromptResult r := fun r hr => hps r (hf1 r hr)
  refine run_bind (run_keyPassword hps1 (fun hb e he => .prompt (.inl hb) (hf1 _ he))) ?_
  rintro password st3 ⟨hpw, hr3, hf3⟩
  have hf3' := fewer_trans hf3 hf1
  refine run_bind (run_export hC hs hmnk master true password ?_) ?_
  · intro hp hl
    refine .random ?_
    have : opts.key.encryptKeys = true := by
      by_contra hb
      exact hp (hpw.2 (by simpa using hb))
    unfold generateNeeds
    rw [if_pos this]
    rw [hr3] at hl
    omega
  rintro key st4 ⟨h4a, h4b, hf4⟩
  have hf4' := fewer_trans hf4 hf3'
  have hlen : rnd.length ≤ st4.rnd.length + (if opts.unsafeEntropy = [] then 16 else 0) +
      (if opts.key.encryptKeys then 96 else 0) := by
    rw [hr3] at h4a h4b
    by_cases hb : opts.key.encryptKeys = true
    · rw [if_pos hb]; omega
    · rw [if_neg hb, h4a (hpw.2 (by simpa using hb))]; omega
  obtain ⟨⟨ws, hplain, -⟩, henc⟩ := phrase_holds hL hC hs hmnk
  refine run_bind (run_words (enc := mnk.encodeMnemonicEncrypted L C) (fun r hr => hps r (hf4' r hr))
    ⟨ws, hplain⟩ (fun pw rnd h1 h2 => ?_) (fun pw rnd h1 h2 => mnk_short hC hs hmnk pw rnd h1 h2) ?_ ?_) ?_
  · obtain ⟨ws, rest, h, -⟩ := henc pw rnd h1 h2
    exact ⟨ws, rest, h⟩
  · exact fun hb e he => .prompt (.inr hb) (hf4' _ he)
  · intro hb hl
    refine .random ?_
    unfold generateNeeds
    rw [if_pos hb]
    omega
  rintro words st5 -
  by_cases hout : opts.outputWordFile = []
  · rw [if_neg (by simp [hout]), if_pos hout]
    refine run_bind run_emit (fun _ _ _ => ?_)
    exact run_print env words (fun h => ⟨hout, h⟩) (fun h1 h2 => ⟨hout, h1, h2⟩)
  · rw [if_pos hout, if_neg hout]
    refine run_bind (run_save env words _ (fun e h _ => .save hout h)) (fun _ _ _ => ?_)
    refine run_bind run_emit (fun _ _ _ => ?_)
    exact run_mono run_pure (fun _ h => h) id id (fun _ _ _ => trivial)

theorem runs_recover {L : WordList} (hL : L.Lawful) {C : Crypto} (hC : C.Lawful) (env : Env)
    (opts : RecoverOptions) (prompts : List (Res Bytes)) (rnd : Bytes) (acts : List Act)
    (hps : ∀ r ∈ prompts, PromptResult r) :
    Run (recoverAndPrintKey L C env opts) ⟨prompts, rnd, acts⟩ (RecoverFails L (offer L) env opts prompts rnd)
      False False (fun _ _ => True) := by
  unfold recoverAndPrintKey
  refine run_bind (run_lift ?_ ?_) ?_
  · intro p hp
    rcases ttlOf_cases opts.key with ⟨h, -⟩ | ⟨t, h, -⟩ <;> rw [h] at hp <;> cases hp
  · intro e he
    rcases ttlOf_cases opts.key with ⟨h, hb⟩ | ⟨t, h, -⟩
    · rw [h] at he; cases he; exact .flags hb
    · rw [h] at he; cases he
  rintro ttl st0 ⟨httl, rfl⟩
  have hneg : ttl < 0 → BadKeyFlags opts.key .ttlInvalid := by
    rcases ttlOf_cases opts.key with ⟨h, -⟩ | ⟨t, h, hb⟩
    · rw [h] at httl; cases httl
    · rw [h] at httl; cases httl; exact hb
  by_cases hidx : opts.encIndex > maxSubkeyIndex ∨ opts.authIndex > maxSubkeyIndex ∨
      opts.sigIndex > maxSubkeyIndex
  · rw [if_pos hidx]
    exact .index hidx
  rw [if_neg hidx]
  refine run_bind (run_lift ?_ ?_) ?_
  · intro p hp
    rcases only_cases opts.key with ⟨h, -⟩ | ⟨m, s, h⟩ <;> rw [h] at hp <;> cases hp
  · intro e he
    rcases only_cases opts.key with ⟨h, hb⟩ | ⟨m, s, h⟩
    · rw [h] at he; cases he; exact .flags hb
    · rw [h] at he; cases he
  rintro ⟨master, subkeys⟩ st0 ⟨-, rfl⟩
  dsimp only
  refine run_bind (run_decode hL hC env opts.input hps (fun e h => .input h) (fun e h => .prompt h)) ?_
  rintro ⟨seed, dm⟩ st1 ⟨hf1, hr1, n, hn, hseed, hoff, -⟩
  change st1.rnd = rnd at hr1
  dsimp only at hseed hoff ⊢
  subst hseed
  generalize hko : ({ name := trimSpace opts.key.name, email := trimSpace opts.key.email, ttl := ttl
                      encryptionSubkeyIndex := UInt16.ofNat opts.encIndex
                      authenticationSubkeyIndex := UInt16.ofNat opts.authIndex
                      signingSubkeyIndex := UInt16.ofNat opts.sigIndex
                      subkeys := subkeys } : KeyOptions) = ko
  have hkt : (inForce (some ko)).ttl = ttl := by rw [← hko]; rfl
  obtain ⟨hn1, hn2⟩ := new_of_decoded hC (n : Int) dm.creationOffset (by simpa using hn) hoff dm rfl (some ko)
  refine run_bind (run_lift ?_ ?_) ?_
  · intro p hp
    by_cases ht : ttl < 0
    · rw [hn2 (by rw [hkt]; exact ht)] at hp; cases hp
    · obtain ⟨mnk, h, -⟩ := hn1 (by rw [hkt]; omega)
      rw [h] at hp; cases hp
  · intro e he
    by_cases ht : ttl < 0
    · rw [hn2 (by rw [hkt]; exact ht)] at he
      cases he
      exact .flags (hneg ht)
    · obtain ⟨mnk, h, -⟩ := hn1 (by rw [hkt]; omega)
      rw [h] at he; cases he
  rintro mnk st2 ⟨hmnk, rfl⟩
  have hs : newSeed 0 (n : Int) = .ok ⟨0, n⟩ := (newSeed_ok_iff _ _ _).2 ⟨rfl, by simpa using hn, rfl⟩
  refine run_bind (run_keyPassword (fun r hr => hps r (hf1 r hr)) (fun hb e he => .prompt (hf1 _ he))) ?_
  rintro password st3 ⟨hpw, hr3, hf3⟩
  refine run_bind (run_export hC hs hmnk master opts.selfCert password ?_) ?_
  · intro hp hl
    refine .random ?_ (by rw [hr3, hr1] at hl; exact hl)
    by_contra hb
    exact hp (hpw.2 (by simpa using hb))
  intro key st4 _
  exact run_mono run_emit (fun _ h => h) id id (fun _ _ _ => trivial)

theorem runs_convert {L : WordList} (hL : L.Lawful) {C : Crypto} (hC : C.Lawful) (env : Env)
    (opts : ConvertOptions) (prompts : List (Res Bytes)) (rnd : Bytes) (acts : List Act)
    (hps : ∀ r ∈ prompts, PromptResult r) :
    Run (decodeAndConvertPhrase L C env opts) ⟨prompts, rnd, acts⟩
      (ConvertFails L (offer L) env opts prompts rnd)
      (opts.input.inputWordFile = [] ∧ env.columns < 2)
      (opts.input.inputWordFile = [] ∧ 2 ≤ env.columns ∧ env.columns < 17)
      (fun _ _ => opts.input.inputWordFile = []) := by
  unfold decodeAndConvertPhrase
  refine run_bind (run_decode hL hC env opts.input hps (fun e h => .input h) (fun e h => .prompt h)) ?_
  rintro ⟨seed, dm⟩ st1 ⟨hf1, hr1, n, hn, hseed, hoff, hread⟩
  change st1.rnd = rnd at hr1
  dsimp only at hseed hoff ⊢
  subst hseed
  have hs : newSeed 0 (n : Int) = .ok ⟨0, n⟩ := (newSeed_ok_iff _ _ _).2 ⟨rfl, by simpa using hn, rfl⟩
  obtain ⟨ws, -, hplain, -⟩ := c01_plaintext_round_trip hL 0 n (by omega) ⟨0, n⟩ hs _ hoff
  refine run_bind (run_words
    (enc := encodeMnemonicEncrypted L C.toPhraseCrypto ⟨0, n⟩ dm.creationOffset)
    (fun r hr => hps r (hf1 r hr)) ⟨ws, hplain⟩ (fun pw rnd h1 h2 => ?_)
    (fun pw rnd h1 h2 => c09_short_random L C.toPhraseCrypto _ _ pw h1 rnd h2)
    (fun _ e he => .prompt (hf1 _ he)) (fun hb hl => .random hb (by rw [hr1] at hl; exact hl))) ?_
  · obtain ⟨ws, rest, -, h, -⟩ := c09_encrypted_round_trip hL hC.phrase n dm.creationOffset hn hoff pw h1 rnd h2
    exact ⟨ws, rest, h⟩
  rintro words st5 -
  by_cases hout : opts.input.inputWordFile = []
  · rw [if_pos hout]
    exact run_mono (run_print env words (fun h => ⟨hout, h⟩) (fun h1 h2 => ⟨hout, h1, h2⟩))
      (fun _ h => h) id id (fun _ _ _ => hout)
  · rw [if_neg hout]
    have hex := hread hout
    exact run_mono (run_save env words _ (fun e h h' => .save hout (h' hex) h))
      (fun _ h => h) id id (fun _ _ h => absurd h hex)

end Verif.Proofs
