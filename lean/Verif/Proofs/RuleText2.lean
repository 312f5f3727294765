import Verif.Proofs.RuleText
/-!
# Blanks, words, numbers, and where the rules fail
-/

namespace Joeson.RuleText
open Joe

variable {rx : Bytes → Option Regex} {D : Nat}

/-- The text does not start with such a byte. -/
def Off (P : UInt8 → Prop) (s : Bytes) : Prop := ∀ x l, s = x :: l → ¬ P x

theorem off_nil (P : UInt8 → Prop) : Off P [] := fun _ _ h => by cases h

theorem off_cons {P : UInt8 → Prop} {x : UInt8} {l : Bytes} (h : ¬ P x) : Off P (x :: l) := fun _ _ h' => by
  cases h'; exact h

theorem Off.imp {P Q : UInt8 → Prop} {s : Bytes} (h : Off P s) (hq : ∀ x, Q x → P x) : Off Q s :=
  fun x l hx hQ => h x l hx (hq x hQ)

/-- In front of something else. -/
theorem Off.append {P : UInt8 → Prop} {a b : Bytes} (h : Off P a) (h' : a = [] → Off P b) : Off P (a ++ b) := by
  cases a with
  | nil => exact h' rfl
  | cons x l => exact off_cons (h x l rfl)

theorem Off.not_prefix {a : UInt8} {b s : Bytes} (h : Off (· = a) s) : ¬ (a :: b) <+: s := by
  rintro ⟨t, rfl⟩
  exact h a (b ++ t) rfl rfl

/-- A space or a newline. -/
def isBlank (x : UInt8) : Prop := x = 0x20 ∨ x = 0x0A

/-! ## Blanks -/

theorem hits_tok (rn : String) (b rest : Bytes) : Hits rx D (.node (tok rn b)) b rest (.str b) := (hits_str _ b rest).plain

theorem fails_tok (rn : String) {a : UInt8} {b s : Bytes} (h : Off (· = a) s) : Fails rx D (.node (tok rn (a :: b))) s :=
  (fails_str _ h.not_prefix).plain

theorem fails_tok' (rn : String) {b s : Bytes} (h : ¬ b <+: s) : Fails rx D (.node (tok rn b)) s := (fails_str _ h).plain

theorem hits_blank (rn : String) {x : UInt8} (h : isBlank x) (rest : Bytes) :
    Hits rx D (.node (blank rn)) [x] rest (.str [x]) := by
  rcases h with rfl | rfl
  · exact (Hits.here (hits_str _ [0x20] rest).plain).choice.plain
  · refine Hits.plain (Hits.choice (Fails.next (Fails.plain (fails_str _ ?_)) (Hits.here (hits_str _ [0x0A] rest).plain)))
    exact (off_cons (by decide)).not_prefix

theorem fails_blank (rn : String) {s : Bytes} (h : Off isBlank s) : Fails rx D (.node (blank rn)) s := by
  refine Fails.plain (Fails.choice (Fails.both (Fails.plain (fails_str _ ?_)) (Fails.both (Fails.plain (fails_str _ ?_))
    fails_alts_nil)))
  · exact (h.imp (fun x hx => Or.inl hx)).not_prefix
  · exact (h.imp (fun x hx => Or.inr hx)).not_prefix

theorem hits_more_blank (rn : String) {rest : Bytes} (hr : Off isBlank rest) {mn : Int} : ∀ {w : Bytes}, Blank w →
    ∀ {vs : List JVal}, mn ≤ vs.length + w.length → ∃ v, Hits rx D (.more (blank rn) none mn (-1) vs) w rest v := by
  intro w
  induction w with
  | nil =>
    intro _ vs hmn
    exact ⟨_, (fails_blank rn hr).stop (by simpa using hmn)⟩
  | cons x l ih =>
    intro hw vs hmn
    have hx : isBlank x := hw x List.mem_cons_self
    obtain ⟨v, hv⟩ := ih (fun y hy => hw y (List.mem_cons_of_mem _ hy)) (vs := vs ++ [.str [x]])
      (by simp only [List.length_append, List.length_cons, List.length_nil] at hmn ⊢; omega)
    exact ⟨v, (hits_blank rn hx (l ++ rest)).next (by decide) hv rfl⟩

/-- `_` takes all blanks. -/
theorem hits_ws (rn : String) {w rest : Bytes} (hw : Blank w) (hr : Off isBlank rest) :
    ∃ v, Hits rx D (.node (ws rn)) w rest v := by
  cases w with
  | nil => exact ⟨_, ((fails_blank "_" hr).pattern (by decide)).plain.mono1⟩
  | cons x l =>
    obtain ⟨v, hv⟩ := hits_more_blank (rx := rx) (D := D) "_" hr (fun y hy => hw y (List.mem_cons_of_mem _ hy)) (w := l) (mn := -1)
      (vs := [.str [x]]) (by simp only [List.length_cons, List.length_nil]; omega)
    exact ⟨v, ((hits_blank "_" (hw x List.mem_cons_self) (l ++ rest)).pattern hv rfl).plain.mono1⟩

/-- Every text starts with blanks, possibly none. -/
theorem split_blank (s : Bytes) : ∃ w g, s = w ++ g ∧ Blank w ∧ Off isBlank g := by
  induction s with
  | nil => exact ⟨[], [], rfl, by simp [Blank], off_nil _⟩
  | cons x l ih =>
    by_cases hx : isBlank x
    · obtain ⟨w, g, rfl, hw, hg⟩ := ih
      refine ⟨x :: w, g, rfl, ?_, hg⟩
      intro y hy
      rcases List.mem_cons.mp hy with rfl | hy
      · exact hx
      · exact hw y hy
    · exact ⟨[], x :: l, rfl, by simp [Blank], off_cons hx⟩

theorem Blank.off {w : Bytes} (hw : Blank w) {P : UInt8 → Prop} (hP : ∀ x, isBlank x → ¬ P x) : Off P w := by
  intro x l h
  subst h
  exact hP x (hw x List.mem_cons_self)

/-- In front of blanks. -/
theorem off_blank_append {w g : Bytes} (hw : Blank w) {P : UInt8 → Prop} (hP : ∀ x, isBlank x → ¬ P x) (hg : Off P g) :
    Off P (w ++ g) := (hw.off hP).append fun _ => hg

/-- `!__` where there are no blanks. -/
theorem hits_notWss (rn : String) {s : Bytes} (h : Off isBlank s) :
    Hits rx D (.node (.not (Info.dumb (item rn)) (.choice (Info.dumb (part rn)) [wssBody]))) [] s .undef :=
  (Fails.not ((fails_blank "__" h).patternFail (by decide)).plain.mono1).plain

/-- `!__` in front of a blank. -/
theorem fails_notWss (rn : String) {x : UInt8} {s : Bytes} (h : isBlank x) :
    Fails rx D (.node (.not (Info.dumb (item rn)) (.choice (Info.dumb (part rn)) [wssBody]))) (x :: s) := by
  obtain ⟨w, g, rfl, hw, hg⟩ := split_blank s
  obtain ⟨v, hv⟩ := hits_more_blank (rx := rx) (D := D) "__" hg hw (mn := 1)
      (vs := [.str [x]]) (by simp only [List.length_cons, List.length_nil]; omega)
  exact (Hits.not (m := x :: w) ((hits_blank "__" h (w ++ g)).pattern hv rfl).plain.mono1).plain

/-! ## `_PIPE` -/

theorem hits_pipe (rn : String) {w : Bytes} (hw : Blank w) (rest : Bytes) :
    ∃ v, Hits rx D (.node (pipe rn)) (w ++ [0x7C]) rest v := by
  obtain ⟨v, hv⟩ := hits_ws (rx := rx) (D := D) "_PIPE" (rest := [0x7C] ++ rest) hw (off_cons (by unfold isBlank; decide))
  refine ⟨_, (Hits.seq (Hits.put hv rfl (Hits.put (hits_tok _ [0x7C] ([] ++ rest)) rfl hits_items_nil ?_) ?_)).plain.mono1⟩
  rotate_left
  · rfl
  · exact (List.append_nil _).symm

theorem fails_pipe (rn : String) {w g : Bytes} (hw : Blank w) (hg : Off isBlank g) (hg' : Off (· = 0x7C) g) :
    Fails rx D (.node (pipe rn)) (w ++ g) := by
  obtain ⟨v, hv⟩ := hits_ws (rx := rx) (D := D) "_PIPE" hw hg
  exact (Fails.seq (Hits.putFail hv rfl (fails_tok _ hg').first rfl)).plain.mono1

/-! ## Words and numbers -/

theorem scan_run {f : UInt8 → Bool} {l rest : Bytes} (h : ∀ x ∈ l, f x = true) (hr : Off (fun x => f x = true) rest) :
    scan f (l ++ rest) = l.length := by
  induction l with
  | nil =>
    cases rest with
    | nil => rfl
    | cons x t =>
      show scan f (x :: t) = 0
      unfold scan
      rw [if_neg (hr x t rfl)]
  | cons x l ih =>
    show scan f (x :: (l ++ rest)) = _
    unfold scan
    rw [if_pos (h x List.mem_cons_self), ih fun y hy => h y (List.mem_cons_of_mem _ hy)]
    rfl

theorem runRegex_hit {first more : UInt8 → Bool} {x : UInt8} {l rest : Bytes} (hx : first x = true)
    (h : ∀ y ∈ l, more y = true) (hr : Off (fun y => more y = true) rest) :
    (runRegex first more).find ((x :: l) ++ rest) = some (0, (x :: l).length) := by
  show (if scan (fun b => !first b) (x :: (l ++ rest)) < _ then _ else none) = _
  have h0 : scan (fun b => !first b) (x :: (l ++ rest)) = 0 := by
    unfold scan
    rw [if_neg (by simp [hx])]
  rw [h0, if_pos (by simp)]
  show some (scan (fun b => !first b) (x :: (l ++ rest)), scan (fun b => !first b) (x :: (l ++ rest)) + 1 +
    scan more (List.drop (scan (fun b => !first b) (x :: (l ++ rest)) + 1) (x :: (l ++ rest)))) = _
  rw [h0, List.drop_succ_cons, List.drop_zero, scan_run h hr]
  simp [Nat.add_comm]

theorem runRegex_miss {first more : UInt8 → Bool} {s : Bytes} (h : Off (fun x => first x = true) s) (b : Nat) :
    (runRegex first more).find s ≠ some (0, b) := by
  show (if scan (fun b => !first b) s < _ then _ else none) ≠ _
  cases s with
  | nil => simp
  | cons x l =>
    have hx : first x = false := by
      have := h x l rfl
      simpa using this
    have h0 : scan (fun b => !first b) (x :: l) = scan (fun b => !first b) l + 1 := by
      rw [scan]
      rw [if_pos (by simp [hx])]
    rw [h0]
    split
    · intro h
      injection h with h
      injection h with h1 h2
      omega
    · simp

theorem letter_iff (x : UInt8) : wordFirst x = true ↔ Letter x := by
  unfold wordFirst Letter
  simp only [Bool.or_eq_true, Bool.and_eq_true, decide_eq_true_eq, beq_iff_eq]
  constructor
  · rintro (((h | h) | h) | h)
    · exact .inl h
    · exact .inr (.inl h)
    · exact .inr (.inr (.inl h))
    · exact .inr (.inr (.inr h))
  · rintro (h | h | h | h)
    · exact .inl (.inl (.inl h))
    · exact .inl (.inl (.inr h))
    · exact .inl (.inr h)
    · exact .inr h

theorem digit_iff (x : UInt8) : isDigit x = true ↔ Digit x := by
  unfold isDigit Digit
  simp

theorem more_iff (x : UInt8) : wordMore x = true ↔ Letter x ∨ Digit x := by
  unfold wordMore
  rw [Bool.or_eq_true, letter_iff, digit_iff]

theorem hits_word {w rest : Bytes} (hw : Word w) (hr : Off (fun x => Letter x ∨ Digit x) rest) :
    Hits rx D (.node wordBody) w rest (.str w) := by
  obtain ⟨x, l, rfl, hx, hl⟩ := hw
  refine (hits_regex _ (runRegex_hit ((letter_iff x).mpr hx) (fun y hy => (more_iff y).mpr (hl y hy)) ?_)).plain
  exact hr.imp fun y hy => (more_iff y).mp hy

theorem fails_word {s : Bytes} (h : Off Letter s) : Fails rx D (.node wordBody) s :=
  (fails_regex _ (runRegex_miss (h.imp fun x hx => (letter_iff x).mp hx))).plain

theorem atoiDigits_eq (ds : Bytes) (h : ∀ x ∈ ds, Digit x) : ∀ n,
    atoiDigits n ds = some (ds.foldl (fun n x => 10 * n + (x.toNat - 0x30)) n) := by
  induction ds with
  | nil => intro n; rfl
  | cons x l ih =>
    intro n
    have hx : 48 ≤ x.toNat ∧ x.toNat ≤ 57 := h x List.mem_cons_self
    rw [atoiDigits, if_pos hx, ih fun y hy => h y (List.mem_cons_of_mem _ hy), List.foldl_cons,
      Nat.mul_comm]

theorem number_value {ds : Bytes} (h : Number ds) : newNativeIntFromString ds = .ok (decimal ds : Int) := by
  obtain ⟨h1, h2, h3⟩ := h
  have hs : atoiSigned false ds = some (decimal ds : Int) := by
    unfold atoiSigned
    rw [if_neg h1, atoiDigits_eq ds h2 0]
    dsimp only
    rw [if_pos]
    · rfl
    · have h4 : ((decimal ds : Nat) : Int) < 2 ^ 63 := by exact_mod_cast h3
      show minInt ≤ ((decimal ds : Nat) : Int) ∧ ((decimal ds : Nat) : Int) ≤ maxInt
      unfold minInt maxInt
      omega
  have ha : atoi ds = some (decimal ds : Int) := by
    cases ds with
    | nil => exact absurd rfl h1
    | cons x l =>
      have hx := h2 x List.mem_cons_self
      unfold atoi
      dsimp only
      rw [if_neg, if_neg, hs]
      · rintro rfl; revert hx; unfold Digit; decide
      · rintro rfl; revert hx; unfold Digit; decide
  unfold newNativeIntFromString
  rw [ha]

theorem hits_int {ds rest : Bytes} (h : Number ds) (hr : Off Digit rest) :
    Hits rx D (.node intBody) ds rest (.int (decimal ds)) := by
  have h' := h
  obtain ⟨h1, h2, h3⟩ := h
  cases ds with
  | nil => exact absurd rfl h1
  | cons x l =>
    refine (hits_regex (rx := rx) (D := D) _ (runRegex_hit ((digit_iff x).mpr (h2 x List.mem_cons_self))
      (fun y hy => (digit_iff y).mpr (h2 y (List.mem_cons_of_mem _ hy))) ?_)).wrapped ?_
    · exact hr.imp fun y hy => (digit_iff y).mp hy
    · intro p
      show (joesonInt (.str (x :: l))).map some = _
      unfold joesonInt
      dsimp only
      rw [number_value h']
      rfl

theorem fails_int {s : Bytes} (h : Off Digit s) : Fails rx D (.node intBody) s :=
  (fails_regex _ (runRegex_miss (h.imp fun x hx => (digit_iff x).mp hx))).wrapped

/-! ## Where rules fail -/

/-- First bytes of `PRIMARY`. -/
def primStart (x : UInt8) : Prop := Letter x ∨ x = 0x28 ∨ x = 0x27 ∨ x = 0x2F ∨ x = 0x5B

/-- First bytes of `LABELED`. -/
def unitStart (x : UInt8) : Prop := primStart x ∨ x = 0x21 ∨ x = 0x3F ∨ x = 0x26 ∨ x = 0x40

theorem fails_primary {s : Bytes} (h : Off primStart s) : Fails rx (D + 2) (.node (.rule 29)) s := by
  have hw : Fails rx D (.node wordBody) s := fails_word (h.imp fun _ hx => .inl hx)
  refine Fails.rule rfl (Fails.choice (Fails.both (Fails.rule rfl (Fails.seq (Fails.first hw.mono1)))
    (Fails.both (Fails.rule rfl (Fails.choice (hw.both fails_alts_nil)))
    (Fails.both (Fails.rule rfl (Fails.seq (Fails.first (fails_tok _ ?_))))
    (Fails.both (Fails.rule rfl (Fails.seq (Fails.first (fails_tok _ ?_))))
    (Fails.both (Fails.rule rfl (Fails.seq (Fails.first (fails_tok _ ?_))))
    (Fails.both (Fails.rule rfl (Fails.seq (Fails.first (fails_tok _ ?_)))) fails_alts_nil)))))))
  · exact h.imp fun _ hx => .inr (.inl hx)
  · exact h.imp fun _ hx => .inr (.inr (.inl hx))
  · exact h.imp fun _ hx => .inr (.inr (.inr (.inl hx)))
  · exact h.imp fun _ hx => .inr (.inr (.inr (.inr hx)))

theorem fails_range {s : Bytes} (h : Off (· = 0x7B) s) : Fails rx (D + 1) (.node (.rule 14)) s :=
  Fails.rule rfl (Fails.seq (Fails.first (fails_tok _ h)))

theorem fails_decorated {s : Bytes} (h : Off unitStart s) : Fails rx (D + 4) (.node (.rule 21)) s := by
  have hp : Fails rx (D + 2) (.node (.rule 29)) s := fails_primary (h.imp fun _ hx => .inl hx)
  refine Fails.rule rfl (Fails.choice (Fails.both (Fails.rule rfl (Fails.seq (Fails.first hp.ref)))
    (Fails.both (Fails.rule rfl (Fails.seq (Fails.first hp.ref)))
    (Fails.both (Fails.rule rfl (Fails.seq (Fails.first hp.ref)))
    (Fails.both (Fails.rule rfl (Fails.seq (Fails.first hp.ref)))
    (Fails.both (Fails.rule rfl (Fails.seq (Fails.first (fails_tok _ ?_))))
    (Fails.both ((Fails.rule rfl (Fails.choice (Fails.both (Fails.plain (Fails.seq (Fails.first (fails_tok _ ?_))))
      (Fails.both (Fails.plain (Fails.seq (Fails.first (fails_tok _ ?_)))) fails_alts_nil)))))
      fails_alts_nil)))))))
  · exact h.imp fun _ hx => .inr (.inl hx)
  · exact h.imp fun _ hx => .inl (.inr (.inl hx))
  · exact h.imp fun _ hx => .inr (.inr (.inl hx))

theorem fails_label {s : Bytes} (h : Off Letter s) (h1 : Off (· = 0x26) s) (h2 : Off (· = 0x40) s) :
    Fails rx D (.node labelSeq) s := by
  refine Fails.plain (Fails.seq (Fails.first (Fails.mono1 (Fails.plain (Fails.choice (Fails.both
    (Fails.plain (fails_str _ h1.not_prefix)) (Fails.both (Fails.plain (fails_str _ h2.not_prefix))
    (Fails.both (fails_word h).mono1 fails_alts_nil))))))))

theorem fails_labeled {s : Bytes} (h : Off unitStart s) : Fails rx (D + 6) (.node (.rule 30)) s := by
  have hp : ∀ {D}, Fails rx (D + 2) (.node (.rule 29)) s := fails_primary (h.imp fun _ hx => .inl hx)
  have hd : ∀ {D}, Fails rx (D + 4) (.node (.rule 21)) s := fails_decorated h
  have hl : ∀ {D}, Fails rx D (.node labelSeq) s := fails_label (h.imp fun _ hx => .inl (.inl hx))
    (h.imp fun _ hx => .inr (.inr (.inr (.inl hx)))) (h.imp fun _ hx => .inr (.inr (.inr (.inr hx))))
  exact Fails.rule rfl (Fails.choice (Fails.both (Fails.rule rfl (Fails.seq (Hits.putFail (s2 := s)
    (Hits.plain (Fails.exist hl)) rfl (Fails.first (Fails.plain (Fails.choice (Fails.both (Fails.ref hd)
      (Fails.both (Fails.ref hp) fails_alts_nil))))) rfl)))
    (Fails.both hd (Fails.both hp fails_alts_nil))))

theorem unitStart_blank {x : UInt8} (h : isBlank x) : ¬ unitStart x := by
  rcases h with rfl | rfl <;> unfold unitStart primStart Letter <;> decide

theorem fails_unit {w g : Bytes} (hw : Blank w) (hg : Off isBlank g) (h : Off unitStart g) :
    Fails rx (D + 8) (.node (.rule 31)) (w ++ g) := by
  obtain ⟨v, hv⟩ := hits_ws (rx := rx) (D := D + 6) "UNIT[0]" hw hg
  refine Fails.rule rfl (Fails.choice (Fails.both (Fails.rule rfl (Fails.seq (Hits.putFail hv rfl
    (Fails.first (Fails.ref (fails_labeled h))) rfl))) (Fails.both ((fails_labeled ?_))
    fails_alts_nil)))
  exact off_blank_append hw (fun x hx => unitStart_blank hx) h

end Joeson.RuleText
