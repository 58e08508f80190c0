import Verif.Model.Cli.Help
import Verif.Spec.Help
import Verif.Props.Usage

/-!
# Lemmas on help texts
-/

namespace Verif.Proofs

open Verif.Model Verif.Model.Cli Verif.Spec Verif.Props

/-! ## Text without styles -/

/-- Whether a text ends within a style sequence -/
def styleEnd : Bool → Bytes → Bool
  | b, [] => b
  | false, c :: s => if c = 0x1B then styleEnd true s else styleEnd false s
  | true, c :: s => if c = 0x6D then styleEnd false s else styleEnd true s

theorem shownText_append : ∀ (s t : Bytes) (b : Bool),
    shownText b (s ++ t) = shownText b s ++ shownText (styleEnd b s) t ∧
    styleEnd b (s ++ t) = styleEnd (styleEnd b s) t := by
  intro s t
  induction s with
  | nil => intro b; cases b <;> simp [shownText, styleEnd]
  | cons c s ih =>
    intro b
    cases b
    · simp only [List.cons_append, shownText, styleEnd]
      split
      · exact ih true
      · simp [ih false]
    · simp only [List.cons_append, shownText, styleEnd]
      split
      · exact ih false
      · exact ih true

def Closed (s : Bytes) : Prop := styleEnd false s = false

instance (s : Bytes) : Decidable (Closed s) := inferInstanceAs (Decidable (_ = _))

theorem unstyled_append {s : Bytes} (h : Closed s) (t : Bytes) : unstyled (s ++ t) = unstyled s ++ unstyled t := by
  unfold unstyled
  rw [(shownText_append s t false).1, h]

theorem closed_append {s t : Bytes} (h : Closed s) (h' : Closed t) : Closed (s ++ t) := by
  unfold Closed
  rw [(shownText_append s t false).2, h, h']

theorem unstyled_free {s : Bytes} (h : (0x1B : Byte) ∉ s) : unstyled s = s ∧ Closed s := by
  induction s with
  | nil => exact ⟨rfl, rfl⟩
  | cons c s ih =>
    simp only [List.mem_cons, not_or] at h
    have := ih h.2
    have hc : c ≠ 0x1B := fun e => h.1 e.symm
    constructor
    · show (if c = 0x1B then _ else c :: unstyled s) = _
      rw [if_neg hc, this.1]
    · show (if c = 0x1B then _ else styleEnd false s) = false
      rw [if_neg hc]
      exact this.2

theorem wrap {p q : Bytes} (hp : Closed p ∧ unstyled p = []) (hq : Closed q ∧ unstyled q = []) {s : Bytes}
    (h : Closed s) : Closed (p ++ s ++ q) ∧ unstyled (p ++ s ++ q) = unstyled s := by
  refine ⟨closed_append (closed_append hp.1 h) hq.1, ?_⟩
  rw [unstyled_append (closed_append hp.1 h), unstyled_append hp.1, hp.2, hq.2]
  simp

theorem bold_unstyled {s : Bytes} (h : Closed s) : Closed (bold s) ∧ unstyled (bold s) = unstyled s := by
  have := wrap (p := escapeCode ++ str "[1m") (q := escapeCode ++ str "[22m") (by decide) (by decide) h
  simpa [bold] using this

theorem magenta_unstyled {s : Bytes} (h : Closed s) : Closed (magenta s) ∧ unstyled (magenta s) = unstyled s := by
  have := wrap (p := escapeCode ++ str "[35m") (q := escapeCode ++ str "[39m") (by decide) (by decide) h
  simpa [magenta] using this

theorem green_unstyled {s : Bytes} (h : Closed s) : Closed (green s) ∧ unstyled (green s) = unstyled s := by
  have := wrap (p := escapeCode ++ str "[32m") (q := escapeCode ++ str "[39m") (by decide) (by decide) h
  simpa [green] using this

theorem cyan_unstyled {s : Bytes} (h : Closed s) : Closed (cyan s) ∧ unstyled (cyan s) = unstyled s := by
  have := wrap (p := escapeCode ++ str "[36m") (q := escapeCode ++ str "[39m") (by decide) (by decide) h
  simpa [cyan] using this

theorem intercalate_plain {sep : Bytes} (hs : (0x1B : Byte) ∉ sep) : ∀ ws : List Bytes, (∀ w ∈ ws, Closed w) →
    Closed (List.intercalate sep ws) ∧
      unstyled (List.intercalate sep ws) = List.intercalate sep (ws.map unstyled) := by
  intro ws
  induction ws with
  | nil => intro _; exact ⟨rfl, rfl⟩
  | cons w ws ih =>
    intro h
    have hw := h w (by simp)
    have := ih fun w hw => h w (by simp [hw])
    cases ws with
    | nil => exact ⟨by simpa [List.intercalate] using hw, by simp [List.intercalate]⟩
    | cons v vs =>
      have e : ∀ (a b : Bytes) (l : List Bytes), List.intercalate sep (a :: b :: l) =
          a ++ sep ++ List.intercalate sep (b :: l) := by
        intro a b l
        simp [List.intercalate, List.intersperse]
      rw [List.map_cons, List.map_cons, e, e]
      obtain ⟨hp, hc⟩ := unstyled_free hs
      refine ⟨closed_append (closed_append hw hc) this.1, ?_⟩
      rw [unstyled_append (closed_append hw hc), unstyled_append hw, hp, this.2]
      rfl

/-- Words whose style sequences are complete and which show something unless they are empty -/
def Shown (w : Bytes) : Prop := Closed w ∧ (unstyled w = [] → w = [])

instance (w : Bytes) : Decidable (Shown w) := inferInstanceAs (Decidable (_ ∧ _))

theorem dropWhile_plain : ∀ (g : List Bytes), (∀ w ∈ g, Shown w) →
    (g.map unstyled).dropWhile (fun w => w = []) = (g.dropWhile (fun w => w = [])).map unstyled := by
  intro g
  induction g with
  | nil => intro _; rfl
  | cons w g ih =>
    intro h
    by_cases hw : w = []
    · subst hw
      simp only [List.map_cons]
      rw [List.dropWhile_cons_of_pos (by rfl), List.dropWhile_cons_of_pos (by rfl)]
      exact ih fun w hw => h w (by simp [hw])
    · have hp : unstyled w ≠ [] := fun e => hw ((h w (by simp)).2 e)
      rw [List.map_cons, List.dropWhile_cons_of_neg (by simpa using hp),
        List.dropWhile_cons_of_neg (by simpa using hw), List.map_cons]

theorem lineText_plain (indent : Nat) (g : List Bytes) (h : ∀ w ∈ g, Shown w) :
    Closed (lineText indent g) ∧ unstyled (lineText indent g) = lineText indent (g.map unstyled) := by
  have hi : (0x1B : Byte) ∉ List.replicate indent (32 : Byte) := by
    intro hm
    exact absurd (List.eq_of_mem_replicate hm) (by decide)
  obtain ⟨h1, h2⟩ := unstyled_free hi
  obtain ⟨h3, h4⟩ := intercalate_plain (sep := [32]) (by decide) (g.dropWhile (fun w => w = []))
    (fun w hw => (h w (List.dropWhile_sublist _ |>.subset hw)).1)
  unfold lineText
  exact ⟨closed_append h2 h3, by rw [unstyled_append h2, h1, h4, dropWhile_plain g h]⟩

/-- What laying out a text with styles shows. -/
theorem laidOut (indent : Nat) (width : Int) (text : Bytes)
    (hs : ∀ w ∈ split 0x20 text, Shown w ∧ (32 : Byte) ∉ unstyled w)
    (hl : (split 0x20 text).length ≤ 100) (hfit : ∀ w ∈ split 0x20 text, (w.length : Int) < width) :
    ∃ out, justifyWidth 100 indent width text = some (.ok out) ∧ Closed out ∧
      LaidOut indent (unstyled text) (unstyled out) := by
  have ht : IsSpaced text (split 0x20 text) := ⟨split_ne _, split_mem _, (intercalate_split _).symm⟩
  obtain ⟨groups, h1, h2, _, h4⟩ := c57_layout indent width text _ ht hfit
  have hg : ∀ g ∈ groups, ∀ w ∈ g, Shown w := by
    intro g hg w hw
    exact (hs w (by rw [← h1]; exact List.mem_flatten.2 ⟨g, hg, hw⟩)).1
  have hlines := intercalate_plain (sep := [10]) (by decide) (groups.map (lineText indent)) (by
    intro w hw
    obtain ⟨g, hg', rfl⟩ := List.mem_map.1 hw
    exact (lineText_plain indent g (hg g hg')).1)
  refine ⟨_, h4 100 hl, hlines.1, groups.map (List.map unstyled), ⟨?_, ?_, ?_⟩, ?_, ?_⟩
  · rw [← List.map_flatten, h1]
    intro e
    exact split_ne _ (List.map_eq_nil_iff.1 e)
  · rw [← List.map_flatten, h1]
    intro w hw
    obtain ⟨v, hv, rfl⟩ := List.mem_map.1 hw
    exact (hs v hv).2
  · rw [← List.map_flatten, h1]
    have := (intercalate_plain (sep := [32]) (by decide) (split 0x20 text) fun w hw => (hs w hw).1.1).2
    rw [intercalate_split] at this
    exact this
  · intro g hg'
    obtain ⟨v, hv, rfl⟩ := List.mem_map.1 hg'
    intro e
    exact h2 v hv (List.map_eq_nil_iff.1 e)
  · rw [hlines.2, List.map_map, List.map_map]
    congr 1
    apply List.map_congr_left
    intro g hg'
    exact (lineText_plain indent g (hg g hg')).2

/-! ## How usage texts end -/

theorem andThen_assoc (a b c : Outcome Unit) : (a.andThen b).andThen c = a.andThen (b.andThen c) := by
  cases a <;> rfl

theorem andThen_ends (a b : Printed) : (a.andThen b).ends = a.ends.andThen b.ends := by
  unfold Printed.andThen Outcome.andThen
  cases h : a.ends <;> simp [h]

theorem laid_ends (after : Bytes) (o : Option (Res Bytes)) : (Printed.laid after o).ends = layoutOutcome o := by
  unfold Printed.laid layoutOutcome
  cases o with
  | none => rfl
  | some r => cases r <;> rfl

theorem foldr_ends {α : Type} (g : α → Printed) : ∀ (l : List α) (a : Outcome Unit),
    a.andThen (l.foldr (fun f p => (g f).andThen p) (.say [])).ends =
      (l.map fun f => (g f).ends).foldl Outcome.andThen a := by
  intro l
  induction l with
  | nil => intro a; cases a <;> rfl
  | cons f l ih =>
    intro a
    rw [List.foldr_cons, andThen_ends, ← andThen_assoc, ih]
    rfl

theorem printFlag_ends (F : Fmt) (columns : Nat) (f : Flag) : (printFlag F columns f).ends =
    layoutOutcome (justifyOptionDescription 100 columns (faint (unquoteUsage f).2)) := by
  unfold printFlag
  rw [andThen_ends, andThen_ends, laid_ends]
  show Outcome.andThen (.ok ()) (Outcome.andThen _ (.ok ())) = _
  cases layoutOutcome (justifyOptionDescription 100 columns (faint (unquoteUsage f).2)) <;> rfl

theorem help_ends_fold (F : Fmt) (columns : Nat) (cmd : Cmd) : (help F columns cmd).ends =
    ((sortFlags (flagTable cmd)).map fun f =>
      layoutOutcome (justifyOptionDescription 100 columns (faint (unquoteUsage f).2))).foldl
    Outcome.andThen (layoutOutcome (justifyTerminalWidth 100 columns 2 (descriptionOf cmd))) := by
  unfold help
  rw [andThen_ends, andThen_ends, andThen_ends, laid_ends]
  show Outcome.andThen (.ok ()) (Outcome.andThen _ (Outcome.andThen (.ok ()) _)) = _
  have hf : (printFlags F columns (sortFlags (flagTable cmd))).ends =
      ((sortFlags (flagTable cmd)).foldr (fun f p => (printFlag F columns f).andThen p) (.say [])).ends := by
    unfold printFlags
    split
    · rename_i h; rw [h]; rfl
    · rw [andThen_ends]; rfl
  show Outcome.andThen _ (printFlags F columns (sortFlags (flagTable cmd))).ends = _
  rw [hf, foldr_ends]
  simp only [printFlag_ends]

theorem help_texts (cmd : Cmd) :
    (∀ f ∈ sortFlags (flagTable cmd), ∃ g ∈ flagsOf cmd, (unquoteUsage f).2 = usageText cmd g.1) ∧
    (∀ g ∈ flagsOf cmd, ∃ f ∈ sortFlags (flagTable cmd), (unquoteUsage f).2 = usageText cmd g.1) := by
  cases cmd <;> decide +kernel

theorem help_ends (F : Fmt) (columns : Nat) (cmd : Cmd) : (help F columns cmd).ends = usage columns cmd := by
  have hlen := usage_short cmd
  obtain ⟨t1, t2⟩ := help_texts cmd
  rw [help_ends_fold, usage_eq, layouts_eq columns (descriptionOf cmd) _ (fun f => faint (unquoteUsage f).2) hlen.1]
  · congr 1
    rw [eq_iff_iff]
    refine and_congr_right fun _ => ⟨fun h g hg => ?_, fun h f hf => ?_⟩
    · obtain ⟨f, hf, e⟩ := t2 g hg
      rw [← e]
      exact h f hf
    · obtain ⟨g, hg, e⟩ := t1 f hf
      rw [e]
      exact h g hg
  · intro f hf
    obtain ⟨g, hg, e⟩ := t1 f hf
    rw [e]
    exact hlen.2 g hg

/-! ## What they show -/

theorem andThen_say (t : Bytes) (p : Printed) : (Printed.say t).andThen p = ⟨t ++ p.text, p.ends⟩ := rfl

/-- The entry of a flag -/
def entryOf (f : Flag) : Entry where
  name := f.name
  placeholder := (unquoteUsage f).1
  description := unstyled (unquoteUsage f).2
  default := if f.kind = .string then
      if f.default = [] then none else some (str "\"" ++ f.default ++ str "\"")
    else some f.default

/-- Flags without surprises -/
def Decent (f : Flag) : Prop :=
  (0x1B : Byte) ∉ f.name ∧ (0x1B : Byte) ∉ (unquoteUsage f).1 ∧ Closed (unquoteUsage f).2 ∧
    (∀ w ∈ split 0x20 (faint (unquoteUsage f).2), Shown w ∧ (32 : Byte) ∉ unstyled w) ∧
    (split 0x20 (faint (unquoteUsage f).2)).length ≤ 100 ∧
    (f.kind ≠ .string → f.default ≠ []) ∧
    ∀ c ∈ f.default, 0x20 ≤ c ∧ c < 0x7F ∧ c ≠ 0x22 ∧ c ≠ 0x5C

instance (f : Flag) : Decidable (Decent f) := by unfold Decent; infer_instance

theorem decent (cmd : Cmd) : ∀ f ∈ sortFlags (flagTable cmd), Decent f := by
  cases cmd <;> decide +kernel

theorem faint_unstyled {s : Bytes} (h : Closed s) : Closed (faint s) ∧ unstyled (faint s) = unstyled s := by
  have := wrap (p := escapeCode ++ str "[2m") (q := escapeCode ++ str "[22m") (by decide) (by decide) h
  simpa [faint] using this

theorem defaultText_plain {F : Fmt} (hF : QuotesPlainly F.quote) {f : Flag} (h : Decent f) :
    Closed (defaultText F f) ∧ unstyled (defaultText F f) =
      match (entryOf f).default with
      | none => []
      | some v => str " (default " ++ v ++ str ")" := by
  obtain ⟨_, _, _, _, _, h6, h7⟩ := h
  have hd : (0x1B : Byte) ∉ f.default := by
    intro hm
    exact absurd (h7 _ hm).1 (by decide)
  have key : ∀ v : Bytes, (0x1B : Byte) ∉ v → Closed (cyan (str " (default " ++ bold v ++ str ")")) ∧
      unstyled (cyan (str " (default " ++ bold v ++ str ")")) = str " (default " ++ v ++ str ")" := by
    intro v hv
    obtain ⟨p1, p2⟩ := unstyled_free hv
    obtain ⟨b1, b2⟩ := bold_unstyled p2
    have c1 : Closed (str " (default ") := by decide
    have c2 : Closed (str " (default " ++ bold v) := closed_append c1 b1
    obtain ⟨q1, q2⟩ := cyan_unstyled (closed_append c2 (show Closed (str ")") by decide))
    refine ⟨q1, ?_⟩
    rw [q2, unstyled_append c2, unstyled_append c1, b2, p1]
    rfl
  unfold defaultText entryOf
  dsimp only
  by_cases hk : f.kind = .string
  · rw [if_pos hk]
    by_cases he : f.default = []
    · have e1 : (if f.kind = .string ∧ f.default ≠ [] then F.quote f.default else f.default) = [] := by
        rw [if_neg (by simp [he]), he]
      rw [e1, if_pos he, if_neg (by simp)]
      exact ⟨rfl, rfl⟩
    · have e1 : (if f.kind = .string ∧ f.default ≠ [] then F.quote f.default else f.default) =
          str "\"" ++ f.default ++ str "\"" := by
        rw [if_pos ⟨hk, he⟩, hF _ h7]
      rw [e1, if_neg he, if_pos (by simp [he])]
      refine key _ ?_
      simp only [List.mem_append, not_or]
      exact ⟨⟨by decide, hd⟩, by decide⟩
  · have e1 : (if f.kind = .string ∧ f.default ≠ [] then F.quote f.default else f.default) = f.default :=
      if_neg fun h => hk h.1
    rw [e1, if_neg hk, if_pos (h6 hk)]
    exact key _ hd

theorem printFlag_text {F : Fmt} (hF : QuotesPlainly F.quote) (columns : Nat) {f : Flag} (h : Decent f)
    (hfit : ∀ w ∈ split 0x20 (faint (unquoteUsage f).2),
      (w.length : Int) < (((columns : Int) - 8) * 4).tdiv 5) :
    ∃ out, printFlag F columns f = ⟨out, .ok ()⟩ ∧ Closed out ∧ IsEntry (entryOf f) (unstyled out) := by
  obtain ⟨d1, d2⟩ := defaultText_plain hF h
  obtain ⟨h1, h2, h3, h4, h5, h6, h7⟩ := h
  obtain ⟨out, e, c, l⟩ := laidOut 8 _ _ h4 h5 hfit
  obtain ⟨n1, n2⟩ := unstyled_free (s := str "-" ++ f.name) (by
    simp only [List.mem_append, not_or]; exact ⟨by decide, h1⟩)
  obtain ⟨g1, g2⟩ := unstyled_free h2
  obtain ⟨m1, m2⟩ := magenta_unstyled n2
  obtain ⟨b1, b2⟩ := bold_unstyled m1
  obtain ⟨r1, r2⟩ := green_unstyled g2
  have c1 : Closed (str "  ") := by decide
  have c2 := closed_append c1 b1
  have c3 := closed_append c2 (show Closed (str " ") by decide)
  have c4 := closed_append c3 r1
  have c5 := closed_append c4 (show Closed (str "\n") by decide)
  have hp : unstyled (str "  " ++ bold (magenta (str "-" ++ f.name)) ++ str " " ++ green (unquoteUsage f).1 ++
      str "\n") = str "  -" ++ f.name ++ str " " ++ (unquoteUsage f).1 ++ str "\n" := by
    rw [unstyled_append c4, unstyled_append c3, unstyled_append c2, unstyled_append c1, b2, m2, n1, r2, g1]
    rfl
  have hj : printFlag F columns f = ⟨(str "  " ++ bold (magenta (str "-" ++ f.name)) ++ str " " ++
      green (unquoteUsage f).1 ++ str "\n") ++ (out ++ (defaultText F f ++ str "\n\n")), .ok ()⟩ := by
    unfold printFlag
    have e' : justifyOptionDescription 100 columns (faint (unquoteUsage f).2) = some (.ok out) := e
    rw [e', andThen_say]
    simp [Printed.laid, Printed.andThen, Printed.say]
  refine ⟨_, hj, ?_, unstyled out, ?_, ?_⟩
  · exact closed_append c5 (closed_append c (closed_append d1 (by decide)))
  · rw [(faint_unstyled h3).2] at l
    exact l
  · rw [unstyled_append c5, hp, unstyled_append c, unstyled_append d1, d2]
    have : unstyled (str "\n\n") = str "\n\n" := by decide
    rw [this]
    simp only [List.append_assoc]
    rfl

theorem printFlags_text {F : Fmt} (hF : QuotesPlainly F.quote) (columns : Nat) : ∀ fs : List Flag,
    (∀ f ∈ fs, Decent f) →
    (∀ f ∈ fs, ∀ w ∈ split 0x20 (faint (unquoteUsage f).2),
      (w.length : Int) < (((columns : Int) - 8) * 4).tdiv 5) →
    ∃ out, fs.foldr (fun f p => (printFlag F columns f).andThen p) (.say []) = ⟨out, .ok ()⟩ ∧ Closed out ∧
      AreEntries (fs.map entryOf) (unstyled out) := by
  intro fs
  induction fs with
  | nil => intro _ _; exact ⟨[], rfl, rfl, .nil⟩
  | cons f fs ih =>
    intro h hfit
    obtain ⟨a, a1, a2, a3⟩ := printFlag_text hF columns (h f (by simp)) (hfit f (by simp))
    obtain ⟨b, b1, b2, b3⟩ := ih (fun g hg => h g (by simp [hg])) (fun g hg => hfit g (by simp [hg]))
    refine ⟨a ++ b, ?_, closed_append a2 b2, ?_⟩
    · rw [List.foldr_cons, b1, a1]
      rfl
    · rw [unstyled_append a2]
      exact .cons a3 b3

theorem descriptions (cmd : Cmd) : (0x1B : Byte) ∉ commandName cmd ∧
    (∀ w ∈ split 0x20 (descriptionOf cmd), Shown w ∧ (32 : Byte) ∉ unstyled w) ∧
    unstyled (descriptionOf cmd) = descriptionOf cmd ∧ (0x1B : Byte) ∉ (examplesOf cmd).flatten ∧
    examplesOf cmd ≠ [] := by
  cases cmd <;> decide +kernel

theorem examples_plain : ∀ es : List Bytes, (0x1B : Byte) ∉ es.flatten →
    (0x1B : Byte) ∉ (es.map fun line => str "  " ++ line ++ str "\n").flatten := by
  intro es
  induction es with
  | nil => intro h; exact h
  | cons e es ih =>
    intro h
    simp only [List.flatten_cons, List.mem_append, not_or, List.map_cons] at h ⊢
    exact ⟨⟨⟨by decide, h.1⟩, by decide⟩, ih h.2⟩

/-- On a terminal that is wide enough the Usage function shows the page of its command. -/
theorem help_text {F : Fmt} (hF : QuotesPlainly F.quote) (columns : Nat) (cmd : Cmd)
    (h : usage columns cmd = .ok ()) :
    ∃ out, help F columns cmd = ⟨out, .ok ()⟩ ∧ Closed out ∧
      IsPage ⟨commandName cmd, descriptionOf cmd, examplesOf cmd, (sortFlags (flagTable cmd)).map entryOf⟩
        (unstyled out) := by
  rw [usage_eq] at h
  obtain ⟨t1, _⟩ := help_texts cmd
  split at h
  case isFalse => cases h
  case isTrue hfit =>
  obtain ⟨f1, f2⟩ := hfit
  obtain ⟨n1, n2, n3, n4, n5⟩ := descriptions cmd
  obtain ⟨d, d1, d2, d3⟩ := laidOut 2 _ (descriptionOf cmd) n2 (usage_short cmd).1 f1
  obtain ⟨es, e1, e2, e3⟩ := printFlags_text hF columns (sortFlags (flagTable cmd)) (decent cmd) (by
    intro f hf
    obtain ⟨g, hg, e⟩ := t1 f hf
    rw [e]
    exact f2 g hg)
  rw [n3] at d3
  obtain ⟨p1, p2⟩ := unstyled_free n1
  obtain ⟨b1, b2⟩ := bold_unstyled p2
  have hd : Printed.laid (str "\n\n") (justifyTerminalWidth 100 columns 2 (descriptionOf cmd)) =
      ⟨d ++ str "\n\n", .ok ()⟩ := by
    have : justifyTerminalWidth 100 columns 2 (descriptionOf cmd) = some (.ok d) := d1
    rw [this]
    rfl
  obtain ⟨x1, x2⟩ := unstyled_free (examples_plain _ n4)
  have c0 : Closed (bold (str "Usage:") ++ str "\n") := by decide
  have c0' : unstyled (bold (str "Usage:") ++ str "\n") = str "Usage:\n" := by decide
  have hx : Closed (printExamples (examplesOf cmd)) ∧ unstyled (printExamples (examplesOf cmd)) =
      str "Usage:\n" ++ ((examplesOf cmd).map fun line => str "  " ++ line ++ str "\n").flatten ++ str "\n" := by
    unfold printExamples
    rw [if_pos n5]
    refine ⟨closed_append (closed_append c0 x2) (by decide), ?_⟩
    rw [unstyled_append (closed_append c0 x2), unstyled_append c0, c0', x1]
    rfl
  obtain ⟨fl, l1, l2, l3⟩ : ∃ fl, printFlags F columns (sortFlags (flagTable cmd)) = ⟨fl, .ok ()⟩ ∧ Closed fl ∧
      unstyled fl = (if (sortFlags (flagTable cmd)).map entryOf = [] then [] else str "Options:\n") ++ unstyled es := by
    unfold printFlags
    generalize hs : sortFlags (flagTable cmd) = fs at e1 e3
    match fs with
    | [] =>
      refine ⟨[], rfl, rfl, ?_⟩
      cases e1
      rfl
    | f :: fs =>
      dsimp only
      rw [e1, andThen_say]
      have c : Closed (bold (str "Options:") ++ str "\n") := by decide
      refine ⟨_, rfl, closed_append c e2, ?_⟩
      rw [unstyled_append c, if_neg (by simp)]
      congr 1
  have c1 : Closed (bold (commandName cmd) ++ str "\n\n") := closed_append b1 (by decide)
  have c2 : Closed (d ++ str "\n\n") := closed_append d2 (by decide)
  refine ⟨(bold (commandName cmd) ++ str "\n\n") ++ ((d ++ str "\n\n") ++
    (printExamples (examplesOf cmd) ++ fl)), ?_, ?_, unstyled d, unstyled es, d3, e3, ?_⟩
  · unfold help
    rw [hd, l1]
    rfl
  · exact closed_append c1 (closed_append c2 (closed_append hx.1 l2))
  · rw [unstyled_append c1, unstyled_append b1, b2, p1, unstyled_append c2, unstyled_append d2, unstyled_append hx.1, hx.2, l3]
    have : unstyled (str "\n\n") = str "\n\n" := by decide
    rw [this]
    simp only [List.append_assoc]

end Verif.Proofs
