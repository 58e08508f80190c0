import Verif.Proofs.PhraseScreen
import Verif.Proofs.Output
import Verif.Proofs.CliRequest
import Verif.Spec.Verbose

/-! # The tables of -verbose -/

namespace Verif.Proofs

open Verif.Model Verif.Model.Cli Verif.Props Verif.Spec Verif.Spec.Term

/-! ## what is in them -/

theorem hex_eq (bs : Bytes) : hex bs = upperHex bs := by
  have h : ∀ n < 16, hexDigit n = (str "0123456789ABCDEF").getD n 0 := by decide +kernel
  unfold hex upperHex
  congr 1
  funext b
  have hb : b.toNat < 256 := b.toNat_lt
  rw [h _ (by omega), h _ (by omega)]

theorem foldl_max (rows : List (Bytes × Bytes)) : ∀ m, rows.foldl (fun m pair => max m pair.1.length) m =
    max m (nameWidth rows) := by
  induction rows with
  | nil => intro m; simp [nameWidth]
  | cons row rows ih => intro m; rw [List.foldl_cons, ih]; simp [nameWidth, max_assoc]

theorem maxKeyLen_eq (rows : List (Bytes × Bytes)) : maxKeyLen rows = nameWidth rows := by
  unfold maxKeyLen
  rw [foldl_max]
  simp

/-- The text given for -ttl, exactly -/
theorem ttl_exact {t : Bytes} {x : Option Nat} (h : Expiry t x) :
    ttlOf t = .ok ((x.getD 0 * 10 ^ 9 : Nat) : Int) ∧ ∀ d, x = some d → 0 < d := by
  have nonempty : ∀ {t : Bytes} {q u : Nat}, IsTTL t q u → t ≠ [] := by
    rintro t q u ⟨ds, c, rfl, -⟩
    simp
  cases h with
  | absent => exact ⟨rfl, by simp⟩
  | zero ht =>
    refine ⟨?_, by simp⟩
    unfold ttlOf
    rw [if_pos (nonempty ht), c43_value t _ _ ht (by simp)]
    simp
  | @after _ q u ht hq hlt =>
    have hu : 0 < u := by
      obtain ⟨ds, c, -, -, -, -, -, hu⟩ := ht
      cases hu <;> decide
    refine ⟨?_, by rintro d ⟨⟩; exact Nat.mul_pos hq hu⟩
    unfold ttlOf
    rw [if_pos (nonempty ht), c43_value t _ _ ht (by omega)]
    rfl

/-- The rows describe the key. -/
theorem keyDebugInfo_eq (F : Fmt) {C : Crypto} (hC : C.Lawful) {n : Nat} {s : Seed}
    (hs : newSeed 0 (n : Int) = .ok s) {creation : Int} {o : KeyOptions} {mnk : Mnemonikey}
    (h : new C s creation (some o) = .ok mnk) {w : Wanted} (hw : wanted C o = w)
    (httl : o.ttl = ((w.expires.getD 0 * 10 ^ 9 : Nat) : Int)) (hpos : ∀ d, w.expires = some d → 0 < d) :
    keyDebugInfo F C mnk =
      keyTable C F.quote (fun second => F.time (second * 10 ^ 9)) n (creation / 10 ^ 9).toNat w := by
  have hm := c23_master hC 0 n s hs creation (some o) mnk h
  have hk := c24_subkeys hC 0 n s hs creation (some o) mnk h
  obtain ⟨-, -, -, hm⟩ := hm
  obtain ⟨h1, h2, h3, -, h5⟩ := hk
  rw [show inForce (some o) = o from rfl] at h1 h2 h3 h5
  obtain ⟨second, e, g1, g2, g3, rfl, hx2, hmnk⟩ := new_shape hC hs h
  rw [e, Int.toNat_natCast] at h1 h2 h3 hm ⊢
  have hu : mnk.userID = w.userID := by
    rw [hmnk, ← hw]
    exact userID_encode o.name o.email
  have hc : mnk.createdAt = (second : Int) * 10 ^ 9 := by rw [hmnk]; rfl
  have hx : mnk.expiry = match w.expires with
      | some d => ((second + d : Nat) : Int) * 10 ^ 9
      | none => zeroTime := by
    rw [hmnk]
    show expiryOf ((second : Int) * 10 ^ 9) o.ttl = _
    rw [httl]
    unfold expiryOf
    cases hd : w.expires with
    | none => simp
    | some d =>
      have := hpos d hd
      rw [if_pos (by simp; omega)]
      simp only [unix, timeAdd, Model.second, Option.getD_some]
      push_cast
      omega
  unfold keyDebugInfo keyTable
  rw [hu, hc, hx, hm, h5, hex_eq]
  subst hw
  simp only [wanted] at hx ⊢
  have hz : ∀ d : Nat, ((second + d : Nat) : Int) * 10 ^ 9 ≠ zeroTime := by
    intro d; unfold zeroTime; omega
  have c1 : capitalize (str "encryption") ++ str " subkey fingerprint" = str "Encryption subkey fingerprint" := by decide
  have c2 : capitalize (str "authentication") ++ str " subkey fingerprint" = str "Authentication subkey fingerprint" := by decide
  have c3 : capitalize (str "signing") ++ str " subkey fingerprint" = str "Signing subkey fingerprint" := by decide
  have hexp : (if (match wantedExpires C o.ttl with
        | some d => ((second + d : Nat) : Int) * 10 ^ 9
        | none => zeroTime) ≠ zeroTime then
        [(str "Master key Fingerprint", upperHex (fingerprint C (edBody second (C.ed25519Pub (wantedMasterSeed C n second))))),
          (str "User ID", F.quote (userID o.name o.email)), (str "Created at", F.time ((second : Int) * 10 ^ 9))] ++
          [(str "Expires at", F.time (match wantedExpires C o.ttl with
            | some d => ((second + d : Nat) : Int) * 10 ^ 9
            | none => zeroTime))]
      else [(str "Master key Fingerprint", upperHex (fingerprint C (edBody second (C.ed25519Pub (wantedMasterSeed C n second))))),
          (str "User ID", F.quote (userID o.name o.email)), (str "Created at", F.time ((second : Int) * 10 ^ 9))]) =
      [(str "Master key Fingerprint", upperHex (edPublic C second (masterSeed C n second)).fingerprint),
        (str "User ID", F.quote (userID o.name o.email)), (str "Created at", F.time ((second : Int) * 10 ^ 9))] ++
      ((wantedExpires C o.ttl).map fun d => (str "Expires at", F.time (((second + d : Nat) : Int) * 10 ^ 9))).toList := by
    cases wantedExpires C o.ttl with
    | none => simp; rfl
    | some d => rw [if_pos (hz d)]; rfl
  have hsub : ((["encryption", "authentication", "signing"].filter (fun t => decide (Selected o t))).map str).map
        (fun subkeyType => (capitalize subkeyType ++ str " subkey fingerprint",
          hex ((mnk.subkeyFingerprint C subkeyType).getD []))) =
      ((if Selected o "encryption" then some o.encryptionSubkeyIndex.toNat else none).map fun i =>
        (str "Encryption subkey fingerprint",
          upperHex (ecdhPublic C second (subkeySeed C n second "encryption" i)).fingerprint)).toList ++
      (((if Selected o "authentication" then some o.authenticationSubkeyIndex.toNat else none).map fun i =>
        (str "Authentication subkey fingerprint",
          upperHex (edPublic C second (subkeySeed C n second "authentication" i)).fingerprint)).toList ++
      ((if Selected o "signing" then some o.signingSubkeyIndex.toNat else none).map fun i =>
        (str "Signing subkey fingerprint",
          upperHex (edPublic C second (subkeySeed C n second "signing" i)).fingerprint)).toList) := by
    by_cases s1 : Selected o "encryption" <;> by_cases s2 : Selected o "authentication" <;>
      by_cases s3 : Selected o "signing" <;>
      simp [s1, s2, s3, h1, h2, h3, c1, c2, c3, hex_eq, edPublic, ecdhPublic]
  rw [List.append_assoc _ _ (Option.toList _), List.append_assoc _ _ (_ ++ _)]
  exact congrArg₂ (· ++ ·) hexp hsub

/-! ## what they look like -/

theorem nameWidth_le {rows : List (Bytes × Bytes)} : ∀ row ∈ rows, row.1.length ≤ nameWidth rows := by
  induction rows with
  | nil => simp
  | cons r rows ih =>
    intro row hr
    rcases List.mem_cons.1 hr with rfl | hr
    · exact le_max_left _ _
    · exact le_trans (ih row hr) (le_max_right _ _)

/-- One row -/
theorem debugRow_shown {t : Term} (f : Fresh t) {m : Nat} {row : Bytes × Bytes} (hm : row.1.length ≤ m)
    (hp : ∀ b ∈ row.1 ++ row.2, Printing b) (hlt : m + 2 + row.2.length < t.width) :
    let u := t.feed (cooked (debugRow m row))
    Fresh u ∧ u.row = t.row + 1 ∧ u.width = t.width ∧ Shows u t.row (tableRow m row) ∧
      ∀ r c, r < t.row → u.cell r c = t.cell r c := by
  dsimp only
  have hk : ∀ b ∈ row.1 ++ str ":", Printing b :=
    printing_append (fun b hb => hp b (by simp [hb])) (by decide)
  have hs : ∀ b ∈ List.replicate (m - row.1.length + 1) (0x20 : Byte), Printing b := by
    intro b hb
    rw [List.eq_of_mem_replicate hb]
    decide
  have hv : ∀ b ∈ row.2, Printing b := fun b hb => hp b (by simp [hb])
  have ek : cooked (Cli.faint (row.1 ++ str ":")) = Cli.faint (row.1 ++ str ":") := by
    unfold Cli.faint
    simp only [cooked_append, cooked_id (printing_not_lf (fun b hb => hp b (List.mem_append_left _ hb)))]
    congr 1
  have ev : cooked (cyan row.2) = cyan row.2 := by
    unfold cyan
    simp only [cooked_append, cooked_id (printing_not_lf hv)]
    congr 1
  unfold debugRow
  rw [cooked_append, cooked_append, cooked_append, ek, ev, cooked_id (printing_not_lf hs), feed_append, feed_append,
    feed_append]
  have hl : (str ":").length = 1 := by decide
  have w1 := f.written.faintText hk (by simp only [List.length_nil, List.length_append, hl]; omega)
  have w2 := w1.text hs (by
    simp only [List.length_nil, List.length_append, hl, faintly, List.length_map, List.length_replicate]; omega)
  have w3 := w2.cyanText hv (by
    simp only [List.length_nil, List.length_append, hl, faintly, plain, List.length_map, List.length_replicate]; omega)
  have := w3.end f
  rw [List.nil_append, List.append_assoc, show ∀ a b, plain a ++ plain b = plain (a ++ b) by simp [plain]] at this
  exact this

theorem debugRows_shown {m : Nat} : ∀ (rows : List (Bytes × Bytes)) {t : Term}, Fresh t →
    (∀ row ∈ rows, row.1.length ≤ m) → (∀ row ∈ rows, ∀ b ∈ row.1 ++ row.2, Printing b) →
    (∀ row ∈ rows, m + 2 + row.2.length < t.width) →
    let u := t.feed (cooked (rows.map (debugRow m)).flatten)
    Fresh u ∧ u.row = t.row + rows.length ∧ u.width = t.width ∧
      (∀ j (hj : j < rows.length), Shows u (t.row + j) (tableRow m rows[j])) ∧
      ∀ r c, r < t.row → u.cell r c = t.cell r c
  | [], t, f, _, _, _ => ⟨f, rfl, rfl, fun _ hj => absurd hj (by simp), fun _ _ _ => rfl⟩
  | row :: rows, t, f, hm, hp, hlt => by
    dsimp only
    rw [List.map_cons, List.flatten_cons, cooked_append, feed_append]
    obtain ⟨f1, r1, w1, s1, a1⟩ := debugRow_shown f (hm row (by simp)) (hp row (by simp)) (hlt row (by simp))
    generalize t.feed (cooked (debugRow m row)) = v at f1 r1 w1 s1 a1
    obtain ⟨f2, r2, w2, s2, a2⟩ := debugRows_shown rows f1 (fun x hx => hm x (by simp [hx]))
      (fun x hx => hp x (by simp [hx])) (fun x hx => by rw [w1]; exact hlt x (by simp [hx]))
    generalize v.feed (cooked (rows.map (debugRow m)).flatten) = u at f2 r2 w2 s2 a2
    refine ⟨f2, by rw [r2, r1, List.length_cons]; omega, w2.trans w1, ?_, ?_⟩
    · intro j hj
      cases j with
      | zero =>
        intro c hc
        rw [show t.row + 0 = t.row from rfl, a2 _ _ (by omega)]
        exact s1 c (by rw [w2] at hc; exact hc)
      | succ j =>
        have hj' : j < rows.length := by simpa using hj
        have := s2 j hj'
        rw [r1, show t.row + 1 + j = t.row + (j + 1) by omega] at this
        exact this
    · intro r c hr
      rw [a2 _ _ (by omega), a1 _ _ hr]

/-- What is written for a table, after a title -/
def tableTexts (title : Bytes) (rows : List (Bytes × Bytes)) : List Bytes :=
  (title ++ str "\n") :: rows.map (debugRow (maxKeyLen rows)) ++ [str "\n"]

theorem table_screen {title : Bytes} (htitle : ∀ b ∈ title, Printing b) {rows : List (Bytes × Bytes)} {t : Term}
    (h : TableRoom t rows) : ShowsTable t (t.feed (sent (tableTexts title rows))) rows := by
  obtain ⟨he, hf, h1, h2, hb, hp, hlt⟩ := h
  have e : sent (tableTexts title rows) = cooked title ++ (cooked (str "\n") ++
      (cooked (rows.map (debugRow (nameWidth rows))).flatten ++ cooked (str "\n"))) := by
    unfold sent tableTexts
    rw [maxKeyLen_eq, List.flatten_append, List.flatten_cons]
    simp only [cooked_append, List.append_assoc, List.flatten_cons, List.flatten_nil, List.append_nil]
  rw [e]
  simp only [feed_append]
  rw [cooked_id (printing_not_lf htitle)]
  obtain ⟨o0, hf0⟩ := onward_text title t he h1 h2 (fun b hb => .inl (htitle b hb))
  obtain ⟨g0, -⟩ := gone_tame title t (by rw [he]; exact tame_text (fun b hb => .inl (htitle b hb))) h1 h2
  generalize t.feed title = t0 at o0 hf0 g0
  obtain ⟨f1, r1, w1, a1⟩ := fresh_lf o0.esc (hf0.trans hf) o0.topRow o0.rowTop (g0.below hb)
  generalize t0.feed (cooked (str "\n")) = t1 at f1 r1 w1 a1
  obtain ⟨f2, r2, w2, s2, a2⟩ := debugRows_shown (m := nameWidth rows) rows f1 nameWidth_le hp (fun row hr => by
    rw [w1, o0.width]; exact hlt row hr)
  generalize t1.feed (cooked (rows.map (debugRow (nameWidth rows))).flatten) = t2 at f2 r2 w2 s2 a2
  obtain ⟨f3, r3, w3, a3⟩ := fresh_lf f2.esc f2.faint f2.topRow f2.rowTop (fun r c hr => f2.blank r c (by omega))
  generalize t2.feed (cooked (str "\n")) = t3 at f3 r3 w3 a3
  have d0 := o0.down
  refine ⟨f3.esc, ?_, t1.row, by omega, by omega, ?_, ?_⟩
  · intro r c hr
    rw [a3 _ _ (by omega), a2 _ _ (by omega), a1 _ _ (by omega), o0.above _ _ hr]
  · intro j hj c hc
    rw [a3 _ _ (by omega)]
    exact s2 j hj c (by rw [w3] at hc; exact hc)
  · intro c _
    rw [a3 _ _ (by omega), f2.blank _ _ (by omega)]
    rfl

/-! ## where they are -/

theorem bindV_ok {α β : Type} {x : ProgV α} {st st1 : StV} {a : α} (h : x st = (.ok a, st1)) (f : α → ProgV β) :
    (x >>= f) st = f a st1 := by
  rw [bindV_run, h]

theorem silent_ok {α : Type} {y : Prog α} {ps ps' : List (Res Bytes)} {rnd rnd' : Bytes} {as : List Act} {a : α}
    (h : y ⟨ps, rnd, []⟩ = (.ok a, ⟨ps', rnd', as⟩)) (ev : List Ev) :
    silent y ⟨ps, rnd, ev⟩ = (.ok a, ⟨ps', rnd', ev ++ as.map .act⟩) := by
  unfold silent
  simp only [h]

theorem silent_quiet {α : Type} {y : Prog α} {ps ps' : List (Res Bytes)} {rnd rnd' : Bytes} {a : α}
    (h : y ⟨ps, rnd, []⟩ = (.ok a, ⟨ps', rnd', []⟩)) (ev : List Ev) :
    silent y ⟨ps, rnd, ev⟩ = (.ok a, ⟨ps', rnd', ev⟩) := by
  rw [silent_ok h]
  simp

theorem eprint_ok (text : Bytes) (ps : List (Res Bytes)) (rnd : Bytes) (ev : List Ev) :
    eprint text ⟨ps, rnd, ev⟩ = (.ok (), ⟨ps, rnd, ev ++ [.err text]⟩) := rfl

theorem eprints_ok (texts : List Bytes) (ps : List (Res Bytes)) (rnd : Bytes) (ev : List Ev) :
    eprints texts ⟨ps, rnd, ev⟩ = (.ok (), ⟨ps, rnd, ev ++ texts.map .err⟩) := rfl

theorem askPassword_ok (prompt : Bytes) (confirm : Bool) (p : Bytes) (rest : List (Res Bytes)) (rnd : Bytes)
    (ev : List Ev) : askPassword prompt confirm ⟨.ok p :: rest, rnd, ev⟩ =
      (.ok p, ⟨rest, rnd, ev ++ [.password prompt confirm]⟩) := by
  unfold askPassword
  rw [bindV_ok (show event (.password prompt confirm) ⟨.ok p :: rest, rnd, ev⟩ = (.ok (), ⟨_, _, _⟩) from rfl)]
  exact silent_quiet rfl _

/-- A table under its title -/
theorem table_ok {α : Type} (title : Bytes) (rows : List (Bytes × Bytes)) (f : Unit → ProgV α)
    (ps : List (Res Bytes)) (rnd : Bytes) (ev : List Ev) :
    (do eprint (title ++ str "\n"); printDebugInfo rows; let u ← eprintln []; f u : ProgV α) ⟨ps, rnd, ev⟩ =
      f () ⟨ps, rnd, ev ++ (tableTexts title rows).map .err⟩ := by
  rw [bindV_ok (eprint_ok _ _ _ _)]
  unfold printDebugInfo eprintln
  rw [bindV_ok (eprints_ok _ _ _ _), bindV_ok (eprint_ok _ _ _ _)]
  simp [tableTexts]

/-- A program that succeeds and adds these events -/
def Steps {α : Type} (x : ProgV α) (ps : List (Res Bytes)) (rnd : Bytes) (a : α) (ps' : List (Res Bytes))
    (rnd' : Bytes) (es : List Ev) : Prop :=
  ∀ ev, x ⟨ps, rnd, ev⟩ = (.ok a, ⟨ps', rnd', ev ++ es⟩)

theorem steps_bind {α β : Type} {x : ProgV α} {f : α → ProgV β} {ps ps' ps'' : List (Res Bytes)}
    {rnd rnd' rnd'' : Bytes} {a : α} {b : β} {es es' : List Ev} (hx : Steps x ps rnd a ps' rnd' es)
    (hf : Steps (f a) ps' rnd' b ps'' rnd'' es') : Steps (x >>= f) ps rnd b ps'' rnd'' (es ++ es') := by
  intro ev
  rw [bindV_ok (hx ev), hf, List.append_assoc]

theorem steps_eprint (text : Bytes) (ps : List (Res Bytes)) (rnd : Bytes) :
    Steps (eprint text) ps rnd () ps rnd [.err text] := fun _ => rfl

theorem steps_pure {α : Type} (a : α) (ps : List (Res Bytes)) (rnd : Bytes) :
    Steps (pure a) ps rnd a ps rnd [] := fun ev => by rw [List.append_nil]; rfl

theorem steps_silent {α : Type} {y : Prog α} {ps ps' : List (Res Bytes)} {rnd rnd' : Bytes} {as : List Act} {a : α}
    (h : y ⟨ps, rnd, []⟩ = (.ok a, ⟨ps', rnd', as⟩)) : Steps (silent y) ps rnd a ps' rnd' (as.map .act) :=
  fun ev => silent_ok h ev

theorem steps_printKey (armored : Bytes) (ps : List (Res Bytes)) (rnd : Bytes) :
    ∃ es, Steps (printKeyV armored) ps rnd () ps rnd es :=
  ⟨_, steps_bind (steps_eprint _ _ _) (steps_bind (steps_silent (as := (armored ++ str "\n").map .stdout) rfl)
    (steps_eprint _ _ _))⟩

theorem steps_table {α : Type} {title text : Bytes} (ht : text = title ++ str "\n") (rows : List (Bytes × Bytes))
    {f : Unit → ProgV α} {ps ps' : List (Res Bytes)} {rnd rnd' : Bytes} {a : α} {es : List Ev}
    (hf : Steps (f ()) ps rnd a ps' rnd' es) :
    Steps (do eprint text; printDebugInfo rows; let u ← eprintln []; f u) ps rnd a ps' rnd'
      ((tableTexts title rows).map .err ++ es) := by
  intro ev
  subst ht
  rw [table_ok, hf, List.append_assoc]

/-- What a program does is independent of the events before it. -/
def Uniform {α : Type} (x : ProgV α) : Prop :=
  ∀ ps rnd, ∃ o ps' rnd' es, ∀ ev, x ⟨ps, rnd, ev⟩ = (o, ⟨ps', rnd', ev ++ es⟩)

theorem uniform_silent {α : Type} (y : Prog α) : Uniform (silent y) := by
  intro ps rnd
  exact ⟨(y ⟨ps, rnd, []⟩).1, (y ⟨ps, rnd, []⟩).2.prompts, (y ⟨ps, rnd, []⟩).2.rnd, (y ⟨ps, rnd, []⟩).2.acts.map .act,
    fun _ => rfl⟩

theorem uniform_event (e : Ev) : Uniform (event e) :=
  fun ps rnd => ⟨.ok (), ps, rnd, [e], fun _ => rfl⟩

theorem uniform_eprint (t : Bytes) : Uniform (eprint t) := uniform_event _

theorem uniform_eprints (ts : List Bytes) : Uniform (eprints ts) :=
  fun ps rnd => ⟨.ok (), ps, rnd, ts.map .err, fun _ => rfl⟩

theorem uniform_bind {α β : Type} {x : ProgV α} {f : α → ProgV β} (hx : Uniform x) (hf : ∀ a, Uniform (f a)) :
    Uniform (x >>= f) := by
  intro ps rnd
  obtain ⟨o, ps1, rnd1, es, h⟩ := hx ps rnd
  cases o with
  | ok a =>
    obtain ⟨o, ps2, rnd2, es', h'⟩ := hf a ps1 rnd1
    exact ⟨o, ps2, rnd2, es ++ es', fun ev => by rw [bindV_ok (h ev), h', List.append_assoc]⟩
  | err e => exact ⟨.err e, ps1, rnd1, es, fun ev => by rw [bindV_run, h]⟩
  | panic e => exact ⟨.panic e, ps1, rnd1, es, fun ev => by rw [bindV_run, h]⟩
  | waits c => exact ⟨.waits c, ps1, rnd1, es, fun ev => by rw [bindV_run, h]⟩
  | loops => exact ⟨.loops, ps1, rnd1, es, fun ev => by rw [bindV_run, h]⟩

theorem uniform_ite {α : Type} {c : Prop} [Decidable c] {x y : ProgV α} (h : Uniform x) (h' : Uniform y) :
    Uniform (if c then x else y) := by
  split <;> assumption

theorem uniform_printMnemonic (env : Env) (ws : List Bytes) : Uniform (printMnemonicV env ws) := by
  unfold printMnemonicV
  refine uniform_bind (uniform_event _) fun _ => uniform_bind (uniform_eprint _) fun _ =>
    uniform_bind (uniform_eprints _) fun _ => uniform_bind (uniform_eprint _) fun _ => ?_
  cases justifyTerminalWidth 19 env.columns 0 notice with
  | none => exact fun ps rnd => ⟨.loops, ps, rnd, [], fun ev => by rw [List.append_nil]⟩
  | some r => exact uniform_bind (uniform_silent _) fun _ => uniform_bind (uniform_eprint _) fun _ => uniform_eprint _

/-! ## -verbose only adds messages -/

theorem more_refl : ∀ a : List Ev, MoreMessages a a
  | [] => .nil
  | e :: a => .same e (more_refl a)

theorem more_append {a b c d : List Ev} (h : MoreMessages a b) (h' : MoreMessages c d) :
    MoreMessages (a ++ c) (b ++ d) := by
  induction h with
  | nil => exact h'
  | same e _ ih => exact .same e ih
  | added t _ ih => exact .added t ih

theorem more_texts : ∀ ts : List Bytes, MoreMessages [] (ts.map Ev.err)
  | [] => .nil
  | t :: ts => .added t (more_texts ts)

/-- The second program does as the first, and writes more messages. -/
def Adding {α : Type} (x y : ProgV α) : Prop :=
  ∀ s t : StV, s.prompts = t.prompts → s.rnd = t.rnd → MoreMessages s.events t.events →
    (x s).1 = (y t).1 ∧ (x s).2.prompts = (y t).2.prompts ∧ (x s).2.rnd = (y t).2.rnd ∧
      MoreMessages (x s).2.events (y t).2.events

theorem adding_silent {α : Type} (y : Prog α) : Adding (silent y) (silent y) := by
  intro s t h1 h2 h3
  unfold silent
  rw [h1, h2]
  exact ⟨rfl, rfl, rfl, more_append h3 (more_refl _)⟩

theorem adding_pure {α : Type} (a : α) : Adding (pure a) (pure a) := fun _ _ h1 h2 h3 => ⟨rfl, h1, h2, h3⟩

theorem adding_event (e : Ev) : Adding (event e) (event e) :=
  fun _ _ h1 h2 h3 => ⟨rfl, h1, h2, more_append h3 (more_refl _)⟩

theorem adding_eprint (t : Bytes) : Adding (eprint t) (eprint t) := adding_event _

theorem adding_eprints (ts : List Bytes) : Adding (eprints ts) (eprints ts) :=
  fun _ _ h1 h2 h3 => ⟨rfl, h1, h2, more_append h3 (more_refl _)⟩

theorem adding_bind {α β : Type} {x y : ProgV α} {f g : α → ProgV β} (hx : Adding x y) (hf : ∀ a, Adding (f a) (g a)) :
    Adding (x >>= f) (y >>= g) := by
  intro s t h1 h2 h3
  rw [bindV_run, bindV_run]
  obtain ⟨e1, e2, e3, e4⟩ := hx s t h1 h2 h3
  cases h : x s with
  | mk o s1 =>
    cases h' : y t with
    | mk o' t1 =>
      rw [h, h'] at e1 e2 e3 e4
      dsimp only at e1 e2 e3 e4
      subst e1
      cases o with
      | ok a => exact hf a s1 t1 e2 e3 e4
      | _ => exact ⟨rfl, e2, e3, e4⟩

theorem adding_ite {α : Type} {c : Prop} [Decidable c] {x x' y y' : ProgV α} (h : Adding x y) (h' : Adding x' y') :
    Adding (if c then x else x') (if c then y else y') := by
  split <;> assumption

theorem adding_opt {α : Type} {c : Prop} [Decidable c] {x x' z z' : ProgV α} (hx : Adding z z' → Adding x x')
    (hz : Adding z z') : Adding (if c then x else z) (if c then x' else z') := by
  split
  · exact hx hz
  · exact hz

/-- A table added -/
theorem adding_table {α : Type} {z z' : ProgV α} (title : Bytes) (rows : List (Bytes × Bytes)) (hz : Adding z z') :
    Adding (if false then do eprint title; printDebugInfo rows; eprintln []; z else z)
      (if true then do eprint title; printDebugInfo rows; eprintln []; z' else z') := by
  intro s t h1 h2 h3
  rw [if_neg (by simp), if_pos rfl]
  exact hz s _ h1 h2 (by
    have := more_append (more_append (more_append h3 (more_texts [title])) (more_texts (rows.map (debugRow (maxKeyLen rows)))))
      (more_texts [[] ++ str "\n"])
    rw [List.append_nil, List.append_nil, List.append_nil] at this
    exact this)

theorem adding_askPassword (p : Bytes) (c : Bool) : Adding (askPassword p c) (askPassword p c) :=
  adding_bind (adding_event _) fun _ => adding_silent _

theorem adding_askSeed (C : Crypto) (dm : DecodedMnemonic) : Adding (askSeedV C dm) (askSeedV C dm) := by
  intro s t h1 h2 h3
  unfold askSeedV
  split
  · rw [h1]
    exact ⟨rfl, rfl, h2, more_append h3 (more_refl _)⟩
  · exact adding_silent _ s t h1 h2 h3

theorem adding_printKey (a : Bytes) : Adding (printKeyV a) (printKeyV a) :=
  adding_bind (adding_eprint _) fun _ => adding_bind (adding_silent _) fun _ => adding_eprint _

theorem adding_printMnemonic (env : Env) (ws : List Bytes) : Adding (printMnemonicV env ws) (printMnemonicV env ws) := by
  unfold printMnemonicV
  refine adding_bind (adding_event _) fun _ => adding_bind (adding_eprint _) fun _ =>
    adding_bind (adding_eprints _) fun _ => adding_bind (adding_eprint _) fun _ => ?_
  cases justifyTerminalWidth 19 env.columns 0 notice with
  | none => exact fun _ _ h1 h2 h3 => ⟨rfl, h1, h2, h3⟩
  | some r => exact adding_bind (adding_silent _) fun _ => adding_bind (adding_eprint _) fun _ => adding_eprint _

theorem adding_decode (L : WordList) (C : Crypto) (env : Env) (opts : InputFlags) :
    Adding (decodeMnemonicFromInputV L C env opts false) (decodeMnemonicFromInputV L C env opts true) := by
  unfold decodeMnemonicFromInputV
  refine adding_opt (fun h => adding_bind (adding_bind (adding_eprints _) fun _ => adding_event _) fun _ => h) ?_
  refine adding_bind (adding_silent _) fun ws => ?_
  refine adding_bind (adding_silent _) fun dm => ?_
  refine adding_table _ _ ?_
  exact adding_bind (adding_askSeed C dm) fun _ => adding_pure _

theorem adding_generate (F : Fmt) (L : WordList) (C : Crypto) (env : Env) (opts : GenerateOptions) :
    Adding (generateAndPrintKeyV F L C env opts false) (generateAndPrintKeyV F L C env opts true) := by
  unfold generateAndPrintKeyV
  refine adding_bind (adding_silent _) fun ttl => ?_
  refine adding_bind (adding_silent _) fun ms => ?_
  refine adding_opt (fun h => adding_bind (adding_eprint _) fun _ => h) ?_
  refine adding_bind (adding_silent _) fun seed => ?_
  refine adding_bind (adding_silent _) fun mnk => ?_
  refine adding_bind (adding_ite (adding_askPassword _ _) (adding_pure _)) fun pw => ?_
  refine adding_bind (adding_silent _) fun key => ?_
  refine adding_bind (adding_ite (adding_bind (adding_askPassword _ _) fun _ => adding_silent _)
    (adding_silent _)) fun ws => ?_
  refine adding_opt (fun h => adding_bind (adding_silent _) fun _ => h) ?_
  refine adding_table _ _ ?_
  refine adding_bind (adding_printKey _) fun _ => ?_
  exact adding_ite (adding_printMnemonic _ _) (adding_pure _)

theorem adding_recover (F : Fmt) (L : WordList) (C : Crypto) (env : Env) (opts : RecoverOptions) :
    Adding (recoverAndPrintKeyV F L C env opts false) (recoverAndPrintKeyV F L C env opts true) := by
  unfold recoverAndPrintKeyV
  refine adding_bind (adding_silent _) fun ttl => ?_
  refine adding_ite (adding_silent _) ?_
  refine adding_bind (adding_silent _) fun ms => ?_
  refine adding_bind (adding_decode _ _ _ _) fun sd => ?_
  refine adding_bind (adding_silent _) fun mnk => ?_
  refine adding_bind (adding_ite (adding_askPassword _ _) (adding_pure _)) fun pw => ?_
  refine adding_bind (adding_silent _) fun key => ?_
  refine adding_table _ _ ?_
  exact adding_printKey _

theorem adding_convert (L : WordList) (C : Crypto) (env : Env) (opts : ConvertOptions) :
    Adding (decodeAndConvertPhraseV L C env opts false) (decodeAndConvertPhraseV L C env opts true) := by
  unfold decodeAndConvertPhraseV
  refine adding_bind (adding_decode _ _ _ _) fun sd => ?_
  refine adding_bind (adding_ite (adding_bind (adding_askPassword _ _) fun _ => adding_silent _)
    (adding_silent _)) fun ws => ?_
  exact adding_ite (adding_printMnemonic _ _) (adding_silent _)

end Verif.Proofs
