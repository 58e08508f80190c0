import Verif.Model.Cli.Help
import Verif.Spec.Help
import Verif.Props.Args

/-!
# Lemmas on malformed command lines
-/

namespace Verif.Proofs

open Verif.Model Verif.Model.Cli Verif.Spec Verif.Props

/-! ## Numbers -/

theorem uintLoopE_plain (base : Nat) : ∀ (s : Bytes) (n : Nat),
    (∀ m, uintLoopE base n s = .ok m ↔ uintLoop base n s = some m) ∧
    (∀ e, uintLoopE base n s = .error e → e = parseError ∨ e = rangeError) := by
  intro s
  induction s with
  | nil => intro n; simp [uintLoopE, uintLoop]
  | cons c s ih =>
    intro n
    simp only [uintLoopE, uintLoop]
    split
    · exact ih n
    · cases digitVal c with
      | none => simp [eq_comm]
      | some d =>
        dsimp only
        split
        · simp [eq_comm]
        · split
          · exact ih _
          · simp [eq_comm]

theorem uintLoopE_range {base : Nat} (hb : base ≤ 16) : ∀ (s : Bytes) (n : Nat), n < 2 ^ 64 →
    (uintLoopE base n s = .error rangeError ↔
      ∃ u w m, s = u ++ w ∧ Loose base n u m ∧ 2 ^ 64 ≤ m) := by
  intro s
  induction s with
  | nil =>
    intro n hn
    simp only [uintLoopE, reduceCtorEq, false_iff]
    rintro ⟨u, w, m, e, h, hm⟩
    obtain ⟨rfl, rfl⟩ := List.append_eq_nil_iff.1 e.symm
    cases h
    omega
  | cons c s ih =>
    intro n hn
    have hne : parseError ≠ rangeError := by decide
    simp only [uintLoopE]
    by_cases hc : c = 0x5F
    · subst hc
      rw [if_pos rfl, ih n hn]
      constructor
      · rintro ⟨u, w, m, rfl, h, hm⟩
        exact ⟨0x5F :: u, w, m, rfl, .underscore h, hm⟩
      · rintro ⟨u, w, m, e, h, hm⟩
        cases h with
        | done => omega
        | digit hd _ _ =>
          injection e with e1 e2
          subst e1
          exact absurd rfl (digit_ne hd)
        | underscore h =>
          injection e with e1 e2
          exact ⟨_, w, m, e2, h, hm⟩
    · rw [if_neg hc]
      have hno : (∀ d, d < base → digitVal c ≠ some d) → ¬ ∃ u w m, c :: s = u ++ w ∧ Loose base n u m ∧ 2 ^ 64 ≤ m := by
        rintro hd ⟨u, w, m, e, h, hm⟩
        cases h with
        | done => omega
        | digit h1 h2 _ =>
          injection e with e1 e2
          subst e1
          exact hd _ h2 ((digit_iff _ _ (digit_lt h1)).2 h1)
        | underscore h =>
          injection e with e1 e2
          exact hc e1
      cases hd : digitVal c with
      | none =>
        dsimp only
        simp only [Except.error.injEq, hne, false_iff]
        exact hno (by simp [hd])
      | some d =>
        dsimp only
        by_cases hdb : d ≥ base
        · rw [if_pos hdb]
          simp only [Except.error.injEq, hne, false_iff]
          exact hno (by rw [hd]; rintro d' h' he; cases he; omega)
        · rw [if_neg hdb]
          have hD : Digit c d := (digit_iff c d (by omega)).1 hd
          by_cases hlt : n * base + d < 2 ^ 64
          · rw [if_pos hlt, ih _ hlt]
            constructor
            · rintro ⟨u, w, m, rfl, h, hm⟩
              exact ⟨c :: u, w, m, rfl, .digit hD (by omega) h, hm⟩
            · rintro ⟨u, w, m, e, h, hm⟩
              cases h with
              | done => omega
              | digit h1 h2 h3 =>
                injection e with e1 e2
                subst e1
                have := (digit_iff _ _ (digit_lt h1)).2 h1
                rw [hd] at this
                cases this
                exact ⟨_, w, m, e2, h3, hm⟩
              | underscore h =>
                injection e with e1 e2
                exact absurd e1 hc
          · rw [if_neg hlt]
            simp only [true_iff]
            exact ⟨[c], s, _, rfl, .digit hD (by omega) (.done _), by omega⟩

theorem parseUintAnyE_plain (s : Bytes) : (∀ n, parseUintAnyE s = .ok n ↔ parseUintAny s = some n) ∧
    ∀ e, parseUintAnyE s = .error e → e = parseError ∨ e = rangeError := by
  unfold parseUintAnyE parseUintAny
  obtain ⟨h1, h2⟩ := uintLoopE_plain (uintBase s).1 (uintBase s).2 0
  by_cases hs : s = []
  · simp [hs, eq_comm]
  · rw [if_neg hs, if_neg hs]
    cases hl : uintLoopE (uintBase s).1 0 (uintBase s).2 with
    | error e =>
      have hn : uintLoop (uintBase s).1 0 (uintBase s).2 = none := by
        cases hu : uintLoop (uintBase s).1 0 (uintBase s).2 with
        | none => rfl
        | some m => rw [(h1 m).2 hu] at hl; cases hl
      rw [hn]
      simp only [reduceCtorEq, implies_true, Except.error.injEq, forall_eq', true_and]
      exact h2 e hl
    | ok n =>
      rw [(h1 n).1 hl]
      dsimp only
      split <;> simp [eq_comm]

theorem radix_base {p u : Bytes} {b : Nat} (h : Radix p b u) : b ≤ 16 := by cases h <;> omega

theorem parseUintAnyE_range (v : Bytes) : parseUintAnyE v = .error rangeError ↔ Overflows v := by
  have hne : parseError ≠ rangeError := by decide
  have hb : (uintBase v).1 ≤ 16 := by
    unfold uintBase
    split
    · split
      · split
        · dsimp only; split <;> [omega; (split <;> omega)]
        · dsimp only; omega
      · dsimp only; omega
    · dsimp only; omega
  have key : parseUintAnyE v = .error rangeError ↔
      uintLoopE (uintBase v).1 0 (uintBase v).2 = .error rangeError := by
    unfold parseUintAnyE
    by_cases hs : v = []
    · subst hs
      simp only [if_true, Except.error.injEq, hne, false_iff]
      simp [uintBase, uintLoopE]
    · rw [if_neg hs]
      cases uintLoopE (uintBase v).1 0 (uintBase v).2 with
      | error e => simp
      | ok n => dsimp only; split <;> simp [hne]
  rw [key, uintLoopE_range hb _ _ (by omega)]
  constructor
  · rintro ⟨u, w, m, e, h, hm⟩
    have hu : u ≠ [] := by rintro rfl; cases h; omega
    match v with
    | [] =>
      have : (uintBase []).2 = [] := rfl
      rw [this] at e
      exact absurd (List.append_eq_nil_iff.1 e.symm).1 hu
    | c :: t =>
      by_cases hc : c = 0x30
      · subst hc
        match t with
        | [] =>
          have : (uintBase [0x30]).2 = [] := rfl
          rw [this] at e
          exact absurd (List.append_eq_nil_iff.1 e.symm).1 hu
        | q :: t =>
          by_cases hq : lowerCase q = 0x62 ∨ lowerCase q = 0x6F ∨ lowerCase q = 0x78
          · by_cases ht : t = []
            · subst ht
              have h8 : uintBase [0x30, q] = (8, [q]) := rfl
              rw [h8] at e h
              cases h with
              | done => omega
              | digit h1 h2 _ =>
                injection e with e1 e2
                subst e1
                exact absurd h2 ((not_octal _ hq).2 _ h1)
              | underscore _ =>
                injection e with e1 e2
                subst e1
                exact absurd hq (by decide)
            · rw [uintBase_prefix hq ht] at e h
              dsimp only at e h
              subst e
              refine ⟨[0x30, q], _, u, w, m, rfl, ?_, h, hm⟩
              obtain ⟨l1, l2, l3⟩ := lower_letter q
              by_cases hb2 : lowerCase q = 0x62
              · rw [if_pos hb2]
                exact .binary _ (by rcases l1.1 hb2 with rfl | rfl <;> decide)
              · rw [if_neg hb2]
                by_cases hb8 : lowerCase q = 0x6F
                · rw [if_pos hb8]
                  exact .octalO _ (by rcases l2.1 hb8 with rfl | rfl <;> decide)
                · rw [if_neg hb8]
                  exact .hex _ (by rcases l3.1 (by tauto) with rfl | rfl <;> decide)
          · rw [uintBase_plain hq] at e h
            exact ⟨str "0", 8, u, w, m, by rw [← e]; rfl, .octal _, h, hm⟩
      · rw [uintBase_other hc] at e h
        exact ⟨[], 10, u, w, m, by rw [← e]; rfl, by rw [← e]; exact .decimal (by simpa using hc), h, hm⟩
  · rintro ⟨p, b, u, w, n, rfl, hr, h, hn⟩
    have hu : u ≠ [] := by rintro rfl; cases h; omega
    have hbase : uintBase (p ++ (u ++ w)) = (b, u ++ w) := by
      have h2 : ∀ c : Byte, (lowerCase c = 0x62 ∨ lowerCase c = 0x6F ∨ lowerCase c = 0x78) →
          uintBase ([0x30, c] ++ (u ++ w)) =
            (if lowerCase c = 0x62 then 2 else if lowerCase c = 0x6F then 8 else 16, u ++ w) :=
        fun c hc => uintBase_prefix hc (by simp [hu])
      cases hr with
      | decimal hd =>
        cases u with
        | nil => exact absurd rfl hu
        | cons c u => exact uintBase_other (by simpa using hd)
      | octal =>
        cases u with
        | nil => exact absurd rfl hu
        | cons c u =>
          refine uintBase_plain ?_
          cases h with
          | digit h1 h2 _ =>
            exact fun hq => absurd h2 ((not_octal _ hq).2 _ h1)
          | underscore _ => decide
      | octalO _ hp => rcases hp with rfl | rfl <;> exact h2 _ (by decide)
      | binary _ hp => rcases hp with rfl | rfl <;> exact h2 _ (by decide)
      | hex _ hp => rcases hp with rfl | rfl <;> exact h2 _ (by decide)
    rw [hbase]
    exact ⟨u, w, n, rfl, h, hn⟩

theorem loose_of_digits {b n m : Nat} {s : Bytes} (h : Digits b n s m) : Loose b n s m := by
  induction h with
  | done n => exact .done n
  | digit h1 h2 _ ih => exact .digit h1 h2 ih
  | underscore h1 h2 _ ih => exact .underscore (.digit h1 h2 ih)

theorem overflows_of_lit {v : Bytes} {n : Nat} (h : IntLit v n) (hn : 2 ^ 64 ≤ n) : Overflows v := by
  cases h with
  | @decimal c d _ s h1 h2 h3 h4 =>
    refine ⟨[], 10, c :: s, [], n, by simp, .decimal ?_, .digit h1 h3 ?_, hn⟩
    · cases h1 with
      | decimal d hd =>
        have : ∀ d < 10, 0 < d → UInt8.ofNat (48 + d) ≠ 0x30 := by decide
        simpa using this d hd h2
      | lower => omega
      | upper => omega
    · simpa using loose_of_digits h4
  | octal h => exact ⟨_, 8, _, [], n, by simp, .octal _, loose_of_digits h, hn⟩
  | octalO hp _ h => exact ⟨_, 8, _, [], n, by simp, .octalO _ hp, loose_of_digits h, hn⟩
  | binary hp _ h => exact ⟨_, 2, _, [], n, by simp, .binary _ hp, loose_of_digits h, hn⟩
  | hex hp _ h => exact ⟨_, 16, _, [], n, by simp, .hex _ hp, loose_of_digits h, hn⟩

theorem noNumber_iff (v e : Bytes) : parseUintAnyE v = .error e ↔ NoNumber v e := by
  obtain ⟨h1, h2⟩ := parseUintAnyE_plain v
  have hno : ∀ e, parseUintAnyE v = .error e → ∀ n, IntLit v n → 2 ^ 64 ≤ n := by
    intro e he n hn
    by_contra hc
    rw [(h1 n).2 ((parseUintAny_iff v n).2 ⟨hn, by omega⟩)] at he
    cases he
  have hr := parseUintAnyE_range v
  have hne : parseError ≠ rangeError := by decide
  constructor
  · intro he
    rcases h2 e he with rfl | rfl
    · have hov : ¬ Overflows v := by
        rw [← hr, he]
        simpa using hne
      exact .syntaxError hov fun n hn => hov (overflows_of_lit hn (hno _ he n hn))
    · exact .range (hr.1 he)
  · intro h
    cases h with
    | range ho => exact hr.2 ho
    | syntaxError ho hl =>
      cases he : parseUintAnyE v with
      | ok n => exact absurd ((parseUintAny_iff v n).1 ((h1 n).1 he)).1 (hl n)
      | error e =>
        rcases h2 e he with rfl | rfl
        · rfl
        · exact absurd (hr.1 he) ho

theorem setValueE_plain (k : FlagKind) (v : Bytes) (x : FlagValue) :
    setValueE k v = .ok x ↔ setValue k v = some x := by
  cases k with
  | bool =>
    simp only [setValueE, setValue]
    cases parseBool v <;> simp
  | string => simp [setValueE, setValue]
  | uint =>
    simp only [setValueE, setValue]
    obtain ⟨h1, h2⟩ := parseUintAnyE_plain v
    cases h : parseUintAnyE v with
    | ok n => rw [(h1 n).1 h]; simp
    | error e =>
      have : parseUintAny v = none := by
        cases hp : parseUintAny v with
        | none => rfl
        | some n => rw [(h1 n).2 hp] at h; cases h
      rw [this]
      simp

theorem setValueE_error (k : FlagKind) (v e : Bytes) : setValueE k v = .error e ↔
    (k = .bool ∧ (∀ x, ¬ Reads .bool v x) ∧ e = str "parse error") ∨ (k = .uint ∧ NoNumber v e) := by
  cases k with
  | bool =>
    simp only [setValueE, true_and, reduceCtorEq, false_and, or_false]
    cases h : parseBool v with
    | none =>
      simp only [Except.error.injEq]
      constructor
      · rintro rfl
        refine ⟨fun x hx => ?_, rfl⟩
        cases x with
        | bool b => rw [(parseBool_iff v b).2 hx] at h; cases h
        | string => cases hx
        | uint => cases hx
      · rintro ⟨_, rfl⟩; rfl
    | some b =>
      simp only [reduceCtorEq, false_iff, not_and]
      intro hx
      exact absurd ((parseBool_iff v b).1 h) (hx _)
  | string => simp [setValueE]
  | uint =>
    simp only [setValueE, true_and, reduceCtorEq, false_and, false_or]
    rw [← noNumber_iff]
    cases parseUintAnyE v <;> simp

/-! ## Command lines -/

theorem classify_bad (s : Bytes) : classify s = .bad ↔
    ∃ dash t, (dash = str "---" ∨ dash = str "-=" ∨ dash = str "--=") ∧ s = dash ++ t := by
  have e1 : str "---" = [0x2D, 0x2D, 0x2D] := by decide
  have e2 : str "-=" = [0x2D, 0x3D] := by decide
  have e3 : str "--=" = [0x2D, 0x2D, 0x3D] := by decide
  rw [e1, e2, e3]
  constructor
  · intro h
    unfold classify at h
    match s with
    | [] => simp at h
    | [a] => simp at h
    | a :: b :: t =>
      by_cases ha : a = 0x2D
      · subst ha
        rw [if_neg (by simp)] at h
        split at h
        · cases h
        · rename_i hd
          by_cases hb : b = 0x2D
          · subst hb
            match t with
            | [] => exact absurd (by decide) hd
            | c :: t =>
              simp only [List.getElem?_cons_succ, List.getElem?_cons_zero, if_true, List.drop_succ_cons,
                List.drop_zero, List.head?_cons, Option.some.injEq, reduceCtorEq, false_or] at h
              split at h
              · rename_i hc
                rcases hc with rfl | rfl
                · exact ⟨_, t, .inl rfl, rfl⟩
                · exact ⟨_, t, .inr (.inr rfl), rfl⟩
              · cases h
          · simp only [List.getElem?_cons_succ, List.getElem?_cons_zero, Option.some.injEq, hb, if_false,
              List.drop_succ_cons, List.drop_zero, List.head?_cons, reduceCtorEq, false_or] at h
            split at h
            · rename_i hc
              subst hc
              exact ⟨_, t, .inr (.inl rfl), rfl⟩
            · cases h
      · rw [if_pos (by simp [ha])] at h
        cases h
  · rintro ⟨dash, t, rfl | rfl | rfl, rfl⟩
    · unfold classify
      rw [if_neg (by simp), if_neg (by rw [str_dashes]; simp)]
      simp
    · unfold classify
      rw [if_neg (by simp), if_neg (by rw [str_dashes]; simp)]
      simp
    · unfold classify
      rw [if_neg (by simp), if_neg (by rw [str_dashes]; simp)]
      simp

theorem set_plain (y : Bytes × FlagValue) (r : ParsedArgsE) :
    (r.set y).plain = r.plain.set y := by cases r <;> rfl

theorem setValueE_cases (k : FlagKind) (v : Bytes) :
    (∃ e, setValueE k v = .error e ∧ setValue k v = none) ∨
    (∃ x, setValueE k v = .ok x ∧ setValue k v = some x) := by
  cases h : setValueE k v with
  | ok x => exact .inr ⟨x, rfl, (setValueE_plain k v x).1 h⟩
  | error e =>
    refine .inl ⟨e, rfl, ?_⟩
    cases hs : setValue k v with
    | none => rfl
    | some x => rw [(setValueE_plain k v x).2 hs] at h; cases h

/-- The message for a value that does not fit -/
def badValue (F : Fmt) (k : FlagKind) (name v e : Bytes) : Bytes :=
  (if k = .bool then str "invalid boolean value " ++ F.quote v ++ str " for -" ++ name
    else str "invalid value " ++ F.quote v ++ str " for flag -" ++ name) ++ str ": " ++ e

theorem parseArgsE_flag_none {F f} {s name : Bytes} {value} {args} (h : classify s = .flag name value)
    (hf : f name = none) :
    parseArgsE F f (s :: args) = if name = str "help" ∨ name = str "h" then .help
      else .failed (str "flag provided but not defined: -" ++ name) := by
  rw [parseArgsE.eq_def]
  simp only [h, hf]

theorem parseArgsE_switch {F f} {s name : Bytes} {args} (h : classify s = .flag name none)
    (hf : f name = some .bool) :
    parseArgsE F f (s :: args) = (parseArgsE F f args).set (name, .bool true) := by
  rw [parseArgsE.eq_def]
  simp only [h, hf]

theorem parseArgsE_equals {F f} {s name v : Bytes} {k} {args} (h : classify s = .flag name (some v))
    (hf : f name = some k) :
    parseArgsE F f (s :: args) = match setValueE k v with
      | .error e => .failed (badValue F k name v e)
      | .ok x => (parseArgsE F f args).set (name, x) := by
  rw [parseArgsE.eq_def]
  cases k <;> simp only [h, hf] <;> cases setValueE _ v <;> rfl

theorem parseArgsE_next {F f} {s name : Bytes} {k} {args} (h : classify s = .flag name none)
    (hf : f name = some k) (hk : k ≠ .bool) :
    parseArgsE F f (s :: args) = match args with
      | [] => .failed (str "flag needs an argument: -" ++ name)
      | v :: args => match setValueE k v with
        | .error e => .failed (badValue F k name v e)
        | .ok x => (parseArgsE F f args).set (name, x) := by
  rw [parseArgsE.eq_def]
  cases k with
  | bool => exact absurd rfl hk
  | string => simp only [h, hf]; cases args <;> rfl
  | uint => simp only [h, hf]; cases args <;> [rfl; (dsimp only; cases setValueE _ _ <;> rfl)]

theorem parseArgsE_plain (F : Fmt) (f : Bytes → Option FlagKind) : ∀ (n : Nat) (args : List Bytes), args.length ≤ n →
    (parseArgsE F f args).plain = parseArgs f args := by
  intro n
  induction n with
  | zero =>
    intro args hn
    match args with
    | [] => rw [parseArgs, parseArgsE]; rfl
    | _ :: _ => simp at hn
  | succ n ih =>
    intro args hn
    match args with
    | [] => rw [parseArgs, parseArgsE]; rfl
    | s :: args =>
      simp only [List.length_cons] at hn
      cases hc : classify s with
      | positional => rw [parseArgs.eq_def, parseArgsE.eq_def]; simp only [hc]; rfl
      | dashes => rw [parseArgs.eq_def, parseArgsE.eq_def]; simp only [hc]; rfl
      | bad => rw [parseArgs.eq_def, parseArgsE.eq_def]; simp only [hc]; rfl
      | flag name value =>
        cases hf : f name with
        | none =>
          rw [parseArgs_flag_none hc hf, parseArgsE_flag_none hc hf]
          split <;> rfl
        | some k =>
          cases value with
          | some v =>
            rw [parseArgs_equals hc hf, parseArgsE_equals hc hf]
            rcases setValueE_cases k v with ⟨e, e1, e2⟩ | ⟨x, e1, e2⟩
            · rw [e1, e2]; rfl
            · rw [e1, e2]
              dsimp only
              rw [set_plain, ih _ (by omega)]
          | none =>
            by_cases hk : k = .bool
            · subst hk
              rw [parseArgs_switch hc hf, parseArgsE_switch hc hf, set_plain, ih _ (by omega)]
            · rw [parseArgs_next hc hf hk, parseArgsE_next hc hf hk]
              match args with
              | [] => rfl
              | v :: args =>
                simp only [List.length_cons] at hn
                dsimp only
                rcases setValueE_cases k v with ⟨e, e1, e2⟩ | ⟨x, e1, e2⟩
                · rw [e1, e2]; rfl
                · rw [e1, e2]
                  dsimp only
                  rw [set_plain, ih _ (by omega)]

theorem set_failed {y : Bytes × FlagValue} {r : ParsedArgsE} {m : Bytes} :
    r.set y = .failed m ↔ r = .failed m := by cases r <;> simp [ParsedArgsE.set]

theorem refused_of_parse {F : Fmt} {f : Bytes → Option FlagKind} (m : Bytes) :
    ∀ (n : Nat) (args : List Bytes), args.length ≤ n →
    parseArgsE F f args = .failed m → Refused (kinds f) F.quote args m := by
  intro n
  induction n with
  | zero =>
    intro args hn h
    match args with
    | [] => rw [parseArgsE] at h; cases h
    | _ :: _ => simp at hn
  | succ n ih =>
    intro args hn h
    match args with
    | [] => rw [parseArgsE] at h; cases h
    | s :: args =>
      simp only [List.length_cons] at hn
      cases hc : classify s with
      | positional => rw [parseArgsE.eq_def] at h; simp only [hc] at h; cases h
      | dashes => rw [parseArgsE.eq_def] at h; simp only [hc] at h; cases h
      | bad =>
        rw [parseArgsE.eq_def] at h
        simp only [hc] at h
        cases h
        obtain ⟨dash, t, hd, rfl⟩ := (classify_bad s).1 hc
        rw [← List.append_assoc]
        exact .badSyntax hd
      | flag name value =>
        obtain ⟨dash, hd, hg, hs⟩ := (classify_flag s name value).1 hc
        cases hf : f name with
        | none =>
          rw [parseArgsE_flag_none hc hf] at h
          split at h
          · cases h
          · rename_i hn
            cases h
            rw [hs]
            refine .unknown hd hg.1 hg.2.1 hg.2.2 ?_ (by unfold kinds; rw [hf]; rfl) (fun e => hn (.inl e))
              (fun e => hn (.inr e))
            cases value with
            | none => exact .inl rfl
            | some v => exact .inr ⟨v, rfl⟩
        | some k =>
          cases value with
          | some v =>
            rw [parseArgsE_equals hc hf] at h
            rw [valueText_some] at hs
            rw [hs]
            cases hx : setValueE k v with
            | error e =>
              rw [hx] at h
              cases h
              rcases (setValueE_error k v e).1 hx with ⟨rfl, h1, rfl⟩ | ⟨rfl, h1⟩
              · have := Refused.boolean (quote := F.quote) (args := args) hd (kinds_of hf) h1
                simp only [badValue, if_true, List.append_assoc] at this ⊢
                exact this
              · have := Refused.number (quote := F.quote) (args := args) hd (kinds_of hf) h1
                simp only [badValue, reduceCtorEq, if_false, List.append_assoc] at this ⊢
                exact this
            | ok x =>
              rw [hx] at h
              exact .equals hd (kinds_of hf) ((setValue_iff _ _ _).1 ((setValueE_plain k v x).1 hx))
                (ih _ (by omega) (set_failed.1 h))
          | none =>
            rw [valueText_none] at hs
            rw [hs]
            by_cases hk : k = .bool
            · subst hk
              rw [parseArgsE_switch hc hf] at h
              exact .switch hd (kinds_of hf) (ih _ (by omega) (set_failed.1 h))
            · rw [parseArgsE_next hc hf hk] at h
              match args with
              | [] =>
                cases h
                exact .noValue hd (kinds_of hf) (by rwa [ne_eq, kindOf_bool])
              | v :: args =>
                dsimp only at h
                cases hx : setValueE k v with
                | error e =>
                  rw [hx] at h
                  cases h
                  rcases (setValueE_error k v e).1 hx with ⟨rfl, h1, rfl⟩ | ⟨rfl, h1⟩
                  · exact absurd rfl hk
                  · have := Refused.numberNext (quote := F.quote) (args := args) hd (kinds_of hf) h1
                    simp only [badValue, reduceCtorEq, if_false, List.append_assoc] at this ⊢
                    exact this
                | ok x =>
                  rw [hx] at h
                  simp only [List.length_cons] at hn
                  exact .next hd (kinds_of hf) (by rwa [ne_eq, kindOf_bool])
                    ((setValue_iff _ _ _).1 ((setValueE_plain k v x).1 hx)) (ih _ (by omega) (set_failed.1 h))

theorem parse_of_refused {F : Fmt} {f : Bytes → Option FlagKind} (hg : GoodNames (kinds f)) {args : List Bytes}
    {m : Bytes} (h : Refused (kinds f) F.quote args m) : parseArgsE F f args = .failed m := by
  have hcv : ∀ {dash name : Bytes} {k} (v : Bytes), dash = str "-" ∨ dash = str "--" → kinds f name = some k →
      classify (dash ++ name ++ str "=" ++ v) = .flag name (some v) := fun v hd hk =>
    (classify_flag _ _ _).2 ⟨_, hd, hg _ _ hk, by rw [valueText_some]⟩
  have hcn : ∀ {dash name : Bytes} {k}, dash = str "-" ∨ dash = str "--" → kinds f name = some k →
      classify (dash ++ name) = .flag name none := fun hd hk =>
    (classify_flag _ _ _).2 ⟨_, hd, hg _ _ hk, by rw [valueText_none]⟩
  have huint : ∀ {name : Bytes}, kinds f name = some .uint → f name = some .uint := by
    intro name hk
    obtain ⟨k', hf, e⟩ := kinds_some hk
    cases k' <;> first | exact hf | cases e
  induction h with
  | @badSyntax dash t args hd =>
    rw [parseArgsE.eq_def]
    simp only [(classify_bad _).2 ⟨_, t, hd, rfl⟩, List.append_assoc]
  | @unknown dash name v args hd n1 n2 n3 hv hk h1 h2 =>
    have hf : f name = none := by
      unfold kinds at hk
      simpa using hk
    have hc : ∃ value, classify (dash ++ name ++ v) = .flag name value := by
      rcases hv with rfl | ⟨w, rfl⟩
      · exact ⟨none, (classify_flag _ _ _).2 ⟨dash, hd, ⟨n1, n2, n3⟩, rfl⟩⟩
      · exact ⟨some w, (classify_flag _ _ _).2 ⟨dash, hd, ⟨n1, n2, n3⟩, rfl⟩⟩
    obtain ⟨value, hc⟩ := hc
    rw [parseArgsE_flag_none hc hf, if_neg (by tauto)]
  | @boolean dash name v args hd hk hr =>
    rw [parseArgsE_equals (hcv v hd hk) (kinds_bool hk), (setValueE_error _ _ _).2 (.inl ⟨rfl, hr, rfl⟩)]
    simp only [badValue, if_true, List.append_assoc]
    rfl
  | @noValue dash name k hd hk hk' =>
    obtain ⟨k', hf, rfl⟩ := kinds_some hk
    rw [parseArgsE_next (hcn hd hk) hf (by rwa [ne_eq, ← kindOf_bool])]
  | @number dash name v why args hd hk hr =>
    rw [parseArgsE_equals (hcv v hd hk) (huint hk), (setValueE_error _ _ _).2 (.inr ⟨rfl, hr⟩)]
    simp only [badValue, reduceCtorEq, if_false, List.append_assoc]
  | @numberNext dash name v why args hd hk hr =>
    rw [parseArgsE_next (hcn hd hk) (huint hk) (by simp)]
    dsimp only
    rw [(setValueE_error _ _ _).2 (.inr ⟨rfl, hr⟩)]
    simp only [badValue, reduceCtorEq, if_false, List.append_assoc]
  | @equals dash name v m k x args hd hk hr _ ih =>
    obtain ⟨k', hf, rfl⟩ := kinds_some hk
    rw [← valueOf_to x, ← setValue_iff, ← setValueE_plain] at hr
    rw [parseArgsE_equals (hcv v hd hk) hf, hr]
    dsimp only
    rw [ih]
    rfl
  | @switch dash name m args hd hk _ ih =>
    rw [parseArgsE_switch (hcn hd hk) (kinds_bool hk), ih]
    rfl
  | @next dash name v m k x args hd hk hk' hr _ ih =>
    obtain ⟨k', hf, rfl⟩ := kinds_some hk
    rw [← valueOf_to x, ← setValue_iff, ← setValueE_plain] at hr
    rw [parseArgsE_next (hcn hd hk) hf (by rwa [ne_eq, ← kindOf_bool])]
    dsimp only
    rw [hr]
    dsimp only
    rw [ih]
    rfl

end Verif.Proofs
