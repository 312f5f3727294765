import Verif.Proofs.RuleText3
/-!
# One lemma for each form of rule text
-/

namespace Joeson.RuleText
open Joe

variable {rx : Bytes → Option Regex} {D : Nat}

/-- Continues a name. -/
abbrev more (x : UInt8) : Prop := Letter x ∨ Digit x

/-- The next thing after blanks is not `->`. -/
def NoArrow (f : Bytes) : Prop := ∃ w g, f = w ++ g ∧ Blank w ∧ Off isBlank g ∧ ¬ [0x2D, 0x3E] <+: g

/-- No label `WORD ':'`. -/
def NoLabel (t : Bytes) : Prop :=
  (Off Letter t ∧ Off (· = 0x26) t ∧ Off (· = 0x40) t) ∨
    ∃ w t', t = w ++ t' ∧ Word w ∧ Off more t' ∧ Off (· = 0x3A) t'

/-- No label `WORD ': '`. -/
def NoInline (t : Bytes) : Prop :=
  Off Letter t ∨ ∃ w t', t = w ++ t' ∧ Word w ∧ Off more t' ∧ ¬ [0x3A, 0x20] <+: t'

theorem Word.head {w : Bytes} (h : Word w) (rest : Bytes) {P : UInt8 → Prop} (hP : ∀ x, Letter x → ¬ P x) :
    Off P (w ++ rest) := by
  obtain ⟨x, l, rfl, hx, -⟩ := h
  exact off_cons (hP x hx)

theorem letter_ne {a : UInt8} (ha : ¬ Letter a) {x : UInt8} (h : Letter x) : ¬ x = a := by
  rintro rfl; exact ha h

instance (x : UInt8) : Decidable (Letter x) := by unfold Letter; exact inferInstance
instance (x : UInt8) : Decidable (Digit x) := by unfold Digit; exact inferInstance
instance (x : UInt8) : Decidable (isBlank x) := by unfold isBlank; exact inferInstance
instance (x : UInt8) : Decidable (primStart x) := by unfold primStart; exact inferInstance
instance (x : UInt8) : Decidable (unitStart x) := by unfold unitStart; exact inferInstance

/-! ## `PRIMARY` -/

theorem newRef_word {w : Bytes} (h : Word w) : newRef.fromName w = .ok (mkRef (nameOf w) (w.head? == some 0x5F)) := by
  obtain ⟨x, l, rfl, -, -⟩ := h
  rfl

theorem hits_ref {w f : Bytes} (hw : Word w) (h1 : Off more f) (h2 : Off (· = 0x28) f) :
    Hits rx (D + 2) (.node (.rule 29)) w f (.parser (mkRef (nameOf w) (w.head? == some 0x5F))) := by
  refine Hits.rule rfl (Hits.choice (Fails.next (m := w) (Fails.rule rfl (Fails.seq
    (Hits.putFail (hits_word hw h1).mono1 rfl (Fails.first (fails_tok _ h2)) rfl)))
    (Hits.here (Hits.rule rfl (Hits.choice (Hits.here (hits_word hw h1))) (v' := .parser (mkRef (nameOf w) (w.head? == some 0x5F))) ?_)))) (fun p => rfl)
  intro p
  show (do return JVal.parser (← newRef.fromName w)).map some = _
  rw [newRef_word hw]
  rfl

theorem hits_call {w t f : Bytes} {v : JVal} (hw : Word w) (hE : Hits rx D (.node (.rule 34)) t ([0x29] ++ f) v) :
    Hits rx (D + 2) (.node (.rule 29)) (w ++ [0x28] ++ t ++ [0x29]) f (.parser (mkRef (nameOf w) (w.head? == some 0x5F))) := by
  refine Hits.rule rfl (Hits.choice (Hits.here (Hits.rule rfl (v := .arr [.str w, v]) (v' := .parser (mkRef (nameOf w) (w.head? == some 0x5F)))
    (Hits.seq (Hits.put (m1 := w) (m2 := [0x28] ++ (t ++ [0x29])) (Hits.mono1 (hits_word hw ?_)) rfl
    (Hits.put (m1 := [0x28]) (hits_tok _ _ _) rfl (Hits.put (m1 := t) (m2 := [0x29]) hE.ref rfl
    (Hits.put (m1 := [0x29]) (m2 := []) (hits_tok _ _ _) rfl hits_items_nil rfl) rfl) rfl) (by simp))) ?_))) (fun p => rfl)
  · exact off_cons (by decide)
  · intro p
    show (do return JVal.parser (← newRef.fromName w)).map some = _
    rw [newRef_word hw]
    rfl

theorem fails_code {f : Bytes} (h : NoArrow f) : Fails rx D (.node codeSeq) f := by
  obtain ⟨w, g, rfl, hw, hg, ha⟩ := h
  obtain ⟨v, hv⟩ := hits_ws (rx := rx) (D := D) "PRIMARY[2]" hw hg
  exact Fails.plain (Fails.seq (Hits.putFail hv rfl (Fails.first (fails_tok' _ ha)) rfl))

/-- `PRIMARY[0]` and `PRIMARY[1]` need a word. -/
theorem fails_inline {t : Bytes} (h : NoInline t) : Fails rx D (.node (.seq (item "PRIMARY[2]") .single
      [.choice (item "PRIMARY[2]") [wordBody], tok "PRIMARY[2]" [0x3A, 0x20]])) t := by
  rcases h with h | ⟨w, t', rfl, hw, h1, h2⟩
  · exact Fails.plain (Fails.seq (Fails.first (fails_word h).mono1))
  · exact Fails.plain (Fails.seq (Hits.putFail (hits_word hw h1).mono1 rfl (Fails.first (fails_tok' _ h2)) rfl))

theorem fails_prim01 {s : Bytes} (h : Off Letter s) :
    Fails rx (D + 1) (.node (.rule 23)) s ∧ Fails rx (D + 1) (.node (.rule 24)) s :=
  ⟨Fails.rule rfl (Fails.seq (Fails.first (fails_word h).mono1)),
    Fails.rule rfl (Fails.choice ((fails_word h).both fails_alts_nil))⟩

theorem hits_group {t f : Bytes} {n : Node} (hE : Hits rx D (.node (.rule 34)) t ([0x29] ++ f) (.parser n))
    (hi : NoInline (t ++ ([0x29] ++ f))) (ha : NoArrow f) :
    Hits rx (D + 2) (.node (.rule 29)) ([0x28] ++ t ++ [0x29]) f (.parser n) := by
  obtain ⟨h0, h1⟩ := fails_prim01 (rx := rx) (D := D) (s := [0x28] ++ t ++ [0x29] ++ f) (off_cons (by decide))
  refine Hits.rule rfl (Hits.choice (Fails.next h0 (Fails.next h1 (Hits.here (Hits.rule rfl
    (v := .map [("inlineLabel", .undef), ("expr", .parser n)]) (v' := .parser n)
    (Hits.seq (Hits.put (m1 := [0x28]) (m2 := [] ++ (t ++ ([0x29] ++ []))) (hits_tok _ _ _) rfl
    (Hits.put (m1 := []) (m2 := t ++ ([0x29] ++ [])) (v := .undef) (Hits.plain (Fails.exist (fails_inline (t := t ++ ([0x29] ++ []) ++ f) (by simpa using hi)))) rfl
    (Hits.put (m1 := t) (m2 := [0x29] ++ []) hE.ref rfl
    (Hits.put (m1 := [0x29]) (m2 := [] ++ []) (hits_tok _ _ _) rfl
    (Hits.put (m1 := []) (m2 := []) (v := .undef) (Hits.plain (Fails.exist (fails_code ha))) rfl hits_items_nil rfl) rfl) rfl) rfl) (by simp)))
    (fun p => rfl)))))) (fun p => rfl)

theorem hits_lgroup {w t f : Bytes} {n : Node} (hw : Word w) (hE : Hits rx D (.node (.rule 34)) t ([0x29] ++ f) (.parser n))
    (ha : NoArrow f) :
    Hits rx (D + 2) (.node (.rule 29)) ([0x28] ++ w ++ [0x3A, 0x20] ++ t ++ [0x29]) f (.parser n) := by
  obtain ⟨h0, h1⟩ := fails_prim01 (rx := rx) (D := D) (s := [0x28] ++ w ++ [0x3A, 0x20] ++ t ++ [0x29] ++ f) (off_cons (by decide))
  refine Hits.rule rfl (Hits.choice (Fails.next h0 (Fails.next h1 (Hits.here (Hits.rule rfl
    (v := .map [("inlineLabel", .str w), ("expr", .parser n)]) (v' := .parser n)
    (Hits.seq (Hits.put (m1 := [0x28]) (m2 := (w ++ ([0x3A, 0x20] ++ [])) ++ (t ++ ([0x29] ++ []))) (hits_tok _ _ _) rfl
    (Hits.put (m1 := w ++ ([0x3A, 0x20] ++ [])) (m2 := t ++ ([0x29] ++ [])) (v := .str w) (Hits.plain (Hits.exist (Hits.plain (Hits.seq
      (Hits.put (m1 := w) (m2 := [0x3A, 0x20] ++ []) (Hits.mono1 (hits_word hw ?_)) rfl
      (Hits.put (m1 := [0x3A, 0x20]) (m2 := []) (hits_tok _ _ _) rfl hits_items_nil rfl) rfl))))) rfl
    (Hits.put (m1 := t) (m2 := [0x29] ++ []) hE.ref rfl
    (Hits.put (m1 := [0x29]) (m2 := [] ++ []) (hits_tok _ _ _) rfl
    (Hits.put (m1 := []) (m2 := []) (v := .undef) (Hits.plain (Fails.exist (fails_code ha))) rfl hits_items_nil rfl) rfl) rfl) rfl) (by simp)))
    (fun p => rfl)))))) (fun p => rfl)
  exact off_cons (by decide)

/-- `PRIMARY[2]` needs a parenthesis. -/
theorem fails_prim2 {s : Bytes} (h : Off (· = 0x28) s) : Fails rx (D + 1) (.node (.rule 25)) s :=
  Fails.rule rfl (Fails.seq (Fails.first (fails_tok _ h)))

theorem hits_strlit {l : List Piece} (h : ∀ p ∈ l, p.Ok 0x27) (f : Bytes) :
    Hits rx (D + 2) (.node (.rule 29)) ([0x27] ++ pieces l ++ [0x27]) f (.parser (mkStr (Spec.utf8 (l.map Piece.char)))) := by
  obtain ⟨h0, h1⟩ := fails_prim01 (rx := rx) (D := D) (s := [0x27] ++ pieces l ++ [0x27] ++ f) (off_cons (by decide))
  have h2 := fails_prim2 (rx := rx) (D := D) (s := [0x27] ++ pieces l ++ [0x27] ++ f) (off_cons (by decide))
  refine Hits.rule rfl (Hits.choice (Fails.next h0 (Fails.next h1 (Fails.next h2 (Hits.here (Hits.rule rfl
    (v' := .parser (mkStr (Spec.utf8 (l.map Piece.char))))
    (Hits.seq (hits_quoted "PRIMARY[3]" "ESC1" (.inl rfl) 0x27 (close := 0x27) (by decide) (by decide) f h)) ?_)))))) (fun p => rfl)
  intro p
  show (do return JVal.parser (mkStr (← JVal.concat _))).map some = _
  rw [concat_pieces, chars_flat]
  rfl

theorem fails_prim3 {s : Bytes} (h : Off (· = 0x27) s) : Fails rx (D + 1) (.node (.rule 26)) s :=
  Fails.rule rfl (Fails.seq (Fails.first (fails_tok _ h)))

theorem pieces_flat (l : List Piece) : l.flatMap (pieceVal (some 13)) = pieces l := rfl

theorem hits_regexlit {l : List Piece} {re : Regex} (h : ∀ p ∈ l, p.Ok 0x2F) (hre : rx (pieces l) = some re) (f : Bytes) :
    Hits rx (D + 2) (.node (.rule 29)) ([0x2F] ++ pieces l ++ [0x2F]) f (.parser (mkRegex re)) := by
  obtain ⟨h0, h1⟩ := fails_prim01 (rx := rx) (D := D) (s := [0x2F] ++ pieces l ++ [0x2F] ++ f) (off_cons (by decide))
  have h2 := fails_prim2 (rx := rx) (D := D) (s := [0x2F] ++ pieces l ++ [0x2F] ++ f) (off_cons (by decide))
  have h3 := fails_prim3 (rx := rx) (D := D) (s := [0x2F] ++ pieces l ++ [0x2F] ++ f) (off_cons (by decide))
  refine Hits.rule rfl (Hits.choice (Fails.next h0 (Fails.next h1 (Fails.next h2 (Fails.next h3 (Hits.here (Hits.rule rfl
    (v' := .parser (mkRegex re))
    (Hits.seq (hits_quoted "PRIMARY[4]" "ESC2" (.inr rfl) 0x2F (close := 0x2F) (by decide) (by decide) f h)) ?_))))))) (fun p => rfl)
  intro p
  show (do return JVal.parser (← newRegex rx (← JVal.concat _))).map some = _
  rw [concat_pieces, pieces_flat]
  show (do return JVal.parser (← newRegex rx (pieces l))).map some = _
  unfold newRegex
  rw [hre]
  rfl

theorem fails_prim4 {s : Bytes} (h : Off (· = 0x2F) s) : Fails rx (D + 1) (.node (.rule 27)) s :=
  Fails.rule rfl (Fails.seq (Fails.first (fails_tok _ h)))

theorem hits_classlit {l : List Piece} {re : Regex} (h : ∀ p ∈ l, p.Ok 0x5D) (hre : rx ([0x5B] ++ pieces l ++ [0x5D]) = some re)
    (f : Bytes) :
    Hits rx (D + 2) (.node (.rule 29)) ([0x5B] ++ pieces l ++ [0x5D]) f (.parser (mkRegex re)) := by
  obtain ⟨h0, h1⟩ := fails_prim01 (rx := rx) (D := D) (s := [0x5B] ++ pieces l ++ [0x5D] ++ f) (off_cons (by decide))
  have h2 := fails_prim2 (rx := rx) (D := D) (s := [0x5B] ++ pieces l ++ [0x5D] ++ f) (off_cons (by decide))
  have h3 := fails_prim3 (rx := rx) (D := D) (s := [0x5B] ++ pieces l ++ [0x5D] ++ f) (off_cons (by decide))
  have h4 := fails_prim4 (rx := rx) (D := D) (s := [0x5B] ++ pieces l ++ [0x5D] ++ f) (off_cons (by decide))
  refine Hits.rule rfl (Hits.choice (Fails.next h0 (Fails.next h1 (Fails.next h2 (Fails.next h3 (Fails.next h4 (Hits.here (Hits.rule rfl
    (v' := .parser (mkRegex re))
    (Hits.seq (hits_quoted "PRIMARY[5]" "ESC2" (.inr rfl) 0x5B (close := 0x5D) (by decide) (by decide) f h)) ?_)))))))) (fun p => rfl)
  intro p
  show (do return JVal.parser (← newRegex rx (asc "[" ++ (← JVal.concat _) ++ asc "]"))).map some = _
  rw [concat_pieces, pieces_flat]
  show (do return JVal.parser (← newRegex rx ([0x5B] ++ pieces l ++ [0x5D]))).map some = _
  unfold newRegex
  rw [hre]
  rfl

/-! ## `DECORATED` -/

section
variable {t f : Bytes} {n : Node}

/-- `DECORATED[0]` fails. -/
theorem fails_deco0 {v : JVal} (hp : Hits rx D (.node (.rule 29)) t f v) (hf : Off (· = 0x3F) f) :
    Fails rx (D + 1) (.node (.rule 15)) (t ++ f) :=
  Fails.rule rfl (Fails.seq (Hits.putFail hp.ref rfl (Fails.first (fails_tok _ hf)) rfl))

/-- `DECORATED[1]` fails. -/
theorem fails_deco1 {v : JVal} (hp : Hits rx D (.node (.rule 29)) t f v) (hf : Off (· = 0x2A) f) :
    Fails rx (D + 1) (.node (.rule 16)) (t ++ f) :=
  Fails.rule rfl (Fails.seq (Hits.putFail hp.ref rfl (Fails.first (fails_tok _ hf)) rfl))

/-- `DECORATED[2]` fails. -/
theorem fails_deco2 {v : JVal} (hp : Hits rx D (.node (.rule 29)) t f v) (hf : Off (· = 0x2B) f) :
    Fails rx (D + 1) (.node (.rule 17)) (t ++ f) :=
  Fails.rule rfl (Fails.seq (Hits.putFail hp.ref rfl (Fails.first (fails_tok _ hf)) rfl))

/-- `DECORATED[3]` fails. -/
theorem fails_deco3 {v : JVal} (hp : Hits rx (D + 1) (.node (.rule 29)) t f v) (hf : Off (· = 0x7B) f) :
    Fails rx (D + 2) (.node (.rule 18)) (t ++ f) :=
  Fails.rule rfl (Fails.seq (Hits.putFail hp.ref rfl (Fails.first (fails_range hf).ref) rfl))

/-- `DECORATED[4]` fails. -/
theorem fails_deco4 {s : Bytes} (hf : Off (· = 0x21) s) : Fails rx (D + 1) (.node (.rule 19)) s :=
  Fails.rule rfl (Fails.seq (Fails.first (fails_tok _ hf)))

/-- `DECORATED[5]` fails. -/
theorem fails_deco5 {s : Bytes} (h1 : ¬ [0x28, 0x3F] <+: s) (h2 : Off (· = 0x3F) s) : Fails rx (D + 1) (.node (.rule 20)) s :=
  Fails.rule rfl (Fails.choice (Fails.both (Fails.plain (Fails.seq (Fails.first (fails_tok' _ h1))))
    (Fails.both (Fails.plain (Fails.seq (Fails.first (fails_tok _ h2)))) fails_alts_nil)))

/-- What can be behind a decorated parser. -/
structure Bare (f : Bytes) : Prop where
  opt : Off (· = 0x3F) f
  star : Off (· = 0x2A) f
  plus : Off (· = 0x2B) f
  range : Off (· = 0x7B) f

theorem fails_decoPrim {v : JVal} (hp : Hits rx (D + 2) (.node (.rule 29)) t f v) (hf : Bare f) (h1 : Off (· = 0x21) (t ++ f))
    (h2 : ¬ [0x28, 0x3F] <+: t ++ f) (h3 : Off (· = 0x3F) (t ++ f)) : Fails rx (D + 4) (.node (.rule 21)) (t ++ f) :=
  Fails.rule rfl (Fails.choice (Fails.both (fails_deco0 hp hf.opt) (Fails.both (fails_deco1 hp hf.star)
    (Fails.both (fails_deco2 hp hf.plus) (Fails.both (fails_deco3 hp hf.range) (Fails.both (fails_deco4 h1)
    (Fails.both (fails_deco5 h2 h3) fails_alts_nil)))))))

/-- `p?` -/
theorem hits_opt (hp : Hits rx D (.node (.rule 29)) t ([0x3F] ++ f) (.parser n)) :
    Hits rx (D + 2) (.node (.rule 21)) (t ++ [0x3F]) f (.parser (mkExist n)) :=
  Hits.rule rfl (Hits.choice (Hits.here (Hits.rule rfl (v := .parser n) (v' := .parser (mkExist n)) (Hits.seq
    (Hits.put (m1 := t) (m2 := [0x3F] ++ []) hp.ref rfl (Hits.put (m2 := []) (hits_tok _ _ _) rfl hits_items_nil rfl) rfl))
    (fun p => rfl)))) (fun p => rfl)

/-- `!__ PRIMARY` -/
abbrev joinSeq (rn : String) : Node := .seq (item rn) .single
  [.not (Info.dumb (item rn)) (.choice (Info.dumb (part rn)) [wssBody]), .ref (item rn) "PRIMARY"]

theorem fails_join (rn : String) {s : Bytes} (h : Off primStart s) : Fails rx (D + 2) (.node (joinSeq rn)) s := by
  have : ∀ {s : Bytes}, Off primStart s → Off isBlank s → Fails rx (D + 2) (.node (joinSeq rn)) s := fun h h' =>
    Fails.plain (Fails.seq (Hits.putFail (m1 := []) (hits_notWss rn h') rfl (Fails.first (fails_primary h).ref) rfl))
  cases s with
  | nil => exact this h (off_nil _)
  | cons x l =>
    by_cases hx : isBlank x
    · exact Fails.plain (Fails.seq (Fails.first (fails_notWss rn hx)))
    · exact this h (off_cons hx)

theorem hits_join (rn : String) {j f : Bytes} {m : Node} (hj : Hits rx D (.node (.rule 29)) j f (.parser m))
    (hb : Off isBlank (j ++ f)) : Hits rx D (.node (joinSeq rn)) j f (.parser m) :=
  Hits.plain (Hits.seq (Hits.put (m1 := []) (m2 := j ++ []) (hits_notWss rn (by simpa using hb)) rfl
    (Hits.put (m2 := []) hj.ref rfl hits_items_nil rfl) (by simp)))

theorem join_wraps (rn : String) : (joinItem rn).wraps = false := rfl

/-- The join, if there is one. -/
def joinVal : Option Node → JVal
  | none => .undef
  | some m => .parser m

/-- `join:(!__ PRIMARY)?` gives this. -/
def JoinHits (rx : Bytes → Option Regex) (D : Nat) (j f : Bytes) (m : Option Node) : Prop :=
  ∀ rn, Hits rx D (.node (joinItem rn)) j f (joinVal m)

theorem joinHits_none {f : Bytes} (h : Off primStart f) : JoinHits rx (D + 2) [] f none :=
  fun rn => (fails_join rn h).exist.plain

theorem joinHits_some {j f : Bytes} {m : Node} (hj : Hits rx D (.node (.rule 29)) j f (.parser m)) (hb : Off isBlank (j ++ f)) :
    JoinHits rx D j f (some m) := fun rn => (hits_join rn hj hb).exist.plain

/-- `p*j{min,max}` -/
theorem hits_star {j b : Bytes} {m : Option Node} {r : Option Bounds} (hr : ∀ b, r = some b → b.Ok) (hb : b = boundsText r)
    (hp : Hits rx (D + 1) (.node (.rule 29)) t ([0x2A] ++ (j ++ (b ++ f))) (.parser n))
    (hj : JoinHits rx (D + 1) j (b ++ f) m) (hf : Off (· = 0x7B) f) :
    Hits rx (D + 3) (.node (.rule 21)) (t ++ [0x2A] ++ j ++ b) f (.parser (mkPattern n m (minOf r) (maxOf r))) := by
  have h0 : Fails rx (D + 2) (.node (.rule 15)) (t ++ ([0x2A] ++ (j ++ (b ++ f)))) := fails_deco0 hp (off_cons (by decide))
  have hitem : Hits rx (D + 1) (.node (.exist (litem "DECORATED[1]" "@") (.ref (item "DECORATED[1]") "RANGE"))) b f
      (match r with | none => .undef | some r => .map [("min", boundVal r.min), ("max", boundVal r.max)]) := by
    cases r with
    | none =>
      subst hb
      exact (fails_range hf).ref.exist.plain
    | some r =>
      subst hb
      exact (hits_range (hr r rfl) f).ref.exist.plain
  refine Hits.rule rfl (Hits.choice (Fails.next (h0.eq (by simp)) (Hits.here (Hits.rule rfl
    (v := .map ([("value", .parser n), ("join", joinVal m)] ++ (match r with | none => [] | some r => [("min", boundVal r.min), ("max", boundVal r.max)])))
    (v' := .parser (mkPattern n m (minOf r) (maxOf r))) (Hits.seq
    (Hits.put (m1 := t) (m2 := [0x2A] ++ (j ++ (b ++ []))) (hp.ref.eq rfl (by simp) rfl) rfl
    (Hits.put (m1 := [0x2A]) (m2 := j ++ (b ++ [])) (hits_tok _ _ _) rfl
    (Hits.put (m1 := j) (m2 := b ++ []) ((hj _).eq rfl (by simp) rfl) rfl
    (Hits.put (m1 := b) (m2 := []) (acc' := .just (.map ([("value", .parser n), ("join", joinVal m)] ++ (match r with | none => [] | some r => [("min", boundVal r.min), ("max", boundVal r.max)])))) hitem ?_ hits_items_nil rfl) rfl) rfl) (by simp))) ?_)))) (fun p => rfl)
  · cases r <;> rfl
  · intro p
    cases r with
    | none => cases m <;> rfl
    | some r =>
      obtain ⟨_, mn, _, _, mx, _⟩ := r
      cases m <;> cases mn <;> cases mx <;> rfl

/-- `p+j` -/
theorem hits_plus {j : Bytes} {m : Option Node} (hp : Hits rx D (.node (.rule 29)) t ([0x2B] ++ (j ++ f)) (.parser n))
    (hj : JoinHits rx D j f m) :
    Hits rx (D + 2) (.node (.rule 21)) (t ++ [0x2B] ++ j) f (.parser (mkPattern n m 1 (-1))) := by
  have h0 : Fails rx (D + 1) (.node (.rule 15)) (t ++ ([0x2B] ++ (j ++ f))) := fails_deco0 hp (off_cons (by decide))
  have h1 : Fails rx (D + 1) (.node (.rule 16)) (t ++ ([0x2B] ++ (j ++ f))) := fails_deco1 hp (off_cons (by decide))
  refine Hits.rule rfl (Hits.choice (Fails.next (h0.eq (by simp)) (Fails.next (h1.eq (by simp)) (Hits.here (Hits.rule rfl
    (v := .map [("value", .parser n), ("join", joinVal m)])
    (v' := .parser (mkPattern n m 1 (-1))) (Hits.seq
    (Hits.put (m1 := t) (m2 := [0x2B] ++ (j ++ [])) (hp.ref.eq rfl (by simp) rfl) rfl
    (Hits.put (m1 := [0x2B]) (m2 := j ++ []) (hits_tok _ _ _) rfl
    (Hits.put (m1 := j) (m2 := []) ((hj _).eq rfl (by simp) rfl) rfl hits_items_nil rfl) rfl) (by simp))) ?_))))) (fun p => rfl)
  intro p
  cases m <;> rfl

/-- `p{min,max}` -/
theorem hits_times {r : Bounds} (hr : r.Ok) (hp : Hits rx (D + 1) (.node (.rule 29)) t (r.text ++ f) (.parser n)) :
    Hits rx (D + 3) (.node (.rule 21)) (t ++ r.text) f (.parser (mkPattern n none (minOf (some r)) (maxOf (some r)))) := by
  have h0 : Fails rx (D + 2) (.node (.rule 15)) (t ++ (r.text ++ f)) := fails_deco0 hp (off_cons (by decide))
  have h1 : Fails rx (D + 2) (.node (.rule 16)) (t ++ (r.text ++ f)) := fails_deco1 hp (off_cons (by decide))
  have h2 : Fails rx (D + 2) (.node (.rule 17)) (t ++ (r.text ++ f)) := fails_deco2 hp (off_cons (by decide))
  refine Hits.rule rfl (Hits.choice (Fails.next (h0.eq (by simp)) (Fails.next (h1.eq (by simp)) (Fails.next (h2.eq (by simp))
    (Hits.here (Hits.rule rfl
    (v := .map [("value", .parser n), ("min", boundVal r.min), ("max", boundVal r.max)])
    (v' := .parser (mkPattern n none (minOf (some r)) (maxOf (some r)))) (Hits.seq
    (Hits.put (m1 := t) (m2 := r.text ++ []) (hp.ref.eq rfl (by simp) rfl) rfl
    (Hits.put (m1 := r.text) (m2 := []) (hits_range hr f).ref rfl hits_items_nil rfl) (by simp))) ?_)))))) (fun p => rfl)
  intro p
  obtain ⟨_, mn, _, _, mx, _⟩ := r
  cases mn <;> cases mx <;> rfl

/-- The first four alternatives start with `PRIMARY`. -/
theorem fails_deco03 {s : Bytes} (hp : Fails rx D (.node (.rule 29)) s) : Fails rx (D + 1) (.node (.rule 15)) s ∧
    Fails rx (D + 1) (.node (.rule 16)) s ∧ Fails rx (D + 1) (.node (.rule 17)) s ∧ Fails rx (D + 1) (.node (.rule 18)) s :=
  ⟨Fails.rule rfl (Fails.seq (Fails.first hp.ref)), Fails.rule rfl (Fails.seq (Fails.first hp.ref)),
    Fails.rule rfl (Fails.seq (Fails.first hp.ref)), Fails.rule rfl (Fails.seq (Fails.first hp.ref))⟩

/-- `!p` -/
theorem hits_not (hp : Hits rx (D + 2) (.node (.rule 29)) t f (.parser n)) :
    Hits rx (D + 4) (.node (.rule 21)) ([0x21] ++ t) f (.parser (mkNot n)) := by
  obtain ⟨h0, h1, h2, h3⟩ := fails_deco03 (fails_primary (rx := rx) (D := D) (s := [0x21] ++ t ++ f) (off_cons (by decide)))
  exact Hits.rule rfl (Hits.choice (Fails.next h0 (Fails.next h1 (Fails.next h2 (Fails.next h3 (Hits.here (Hits.rule rfl
    (v := .parser n) (v' := .parser (mkNot n)) (Hits.seq
    (Hits.put (m1 := [0x21]) (m2 := t ++ []) (hits_tok _ _ _) rfl (Hits.put (m1 := t) (m2 := []) hp.ref rfl hits_items_nil rfl)
      (by simp))) (fun p => rfl)))))))) (fun p => rfl)

/-- `(?e)` -/
theorem hits_look {v : JVal} (hE : Hits rx (D + 2) (.node (.rule 34)) t ([0x29] ++ f) (.parser n))
    (hp : Hits rx (D + 2) (.node (.rule 29)) ([0x28, 0x3F] ++ t ++ [0x29]) f v) (hf : Bare f) :
    Hits rx (D + 4) (.node (.rule 21)) ([0x28, 0x3F] ++ t ++ [0x29]) f (.parser (mkLook n)) := by
  have h4 := fails_deco4 (rx := rx) (D := D + 2) (s := [0x28, 0x3F] ++ t ++ [0x29] ++ f) (off_cons (by decide))
  exact Hits.rule rfl (Hits.choice (Fails.next (fails_deco0 hp hf.opt) (Fails.next (fails_deco1 hp hf.star)
    (Fails.next (fails_deco2 hp hf.plus) (Fails.next (fails_deco3 hp hf.range) (Fails.next h4 (Hits.here (Hits.rule rfl
    (v := .map [("expr", .parser n)]) (v' := .parser (mkLook n)) (Hits.choice (Hits.here (Hits.plain (Hits.seq
    (Hits.put (m1 := [0x28, 0x3F]) (m2 := t ++ ([0x29] ++ [])) (hits_tok _ _ _) rfl
      (Hits.put (m1 := t) (m2 := [0x29] ++ []) hE.ref rfl (Hits.put (m1 := [0x29]) (m2 := []) (hits_tok _ _ _) rfl
        hits_items_nil rfl) rfl) (by simp)))))) (fun p => rfl))))))))) (fun p => rfl)

/-- `?e` -/
theorem hits_open (hE : Hits rx (D + 2) (.node (.rule 34)) t f (.parser n)) :
    Hits rx (D + 4) (.node (.rule 21)) ([0x3F] ++ t) f (.parser (mkLook n)) := by
  obtain ⟨h0, h1, h2, h3⟩ := fails_deco03 (fails_primary (rx := rx) (D := D) (s := [0x3F] ++ t ++ f) (off_cons (by decide)))
  have h4 := fails_deco4 (rx := rx) (D := D + 2) (s := [0x3F] ++ t ++ f) (off_cons (by decide))
  exact Hits.rule rfl (Hits.choice (Fails.next h0 (Fails.next h1 (Fails.next h2 (Fails.next h3 (Fails.next h4 (Hits.here (Hits.rule rfl
    (v := .map [("expr", .parser n)]) (v' := .parser (mkLook n)) (Hits.choice (Fails.next (Fails.plain (Fails.seq (Fails.first
      (fails_tok _ (off_cons (by decide)))))) (Hits.here (Hits.plain (Hits.seq
    (Hits.put (m1 := [0x3F]) (m2 := t ++ []) (hits_tok _ _ _) rfl
      (Hits.put (m1 := t) (m2 := []) hE.ref rfl hits_items_nil rfl) (by simp))))))) (fun p => rfl))))))))) (fun p => rfl)

/-! ## `LABELED` and `UNIT` -/

/-- What `LABELED` tries. -/
abbrev decoTask : Task JVal := .alts [.ref (part "LABELED[0]") "DECORATED", .ref (part "LABELED[0]") "PRIMARY"]

theorem deco_hit {v : JVal} (h : Hits rx D (.node (.rule 21)) t f v) : Hits rx D decoTask t f v := h.ref.here

theorem prim_hit {v : JVal} (h : Hits rx D (.node (.rule 29)) t f v) (h' : Fails rx D (.node (.rule 21)) (t ++ f)) :
    Hits rx D decoTask t f v := h'.ref.next h.ref.here

theorem fails_labelSeq {s : Bytes} (h : NoLabel s) : Fails rx D (.node labelSeq) s := by
  rcases h with ⟨h1, h2, h3⟩ | ⟨w, t', rfl, hw, h1, h2⟩
  · exact fails_label h1 h2 h3
  · refine Fails.plain (Fails.seq (Hits.putFail (s2 := t') (Hits.mono1 (v := .str w) (Hits.plain (Hits.choice (Fails.next
      (Fails.plain (fails_str _ ?_)) (Fails.next (Fails.plain (fails_str _ ?_)) (Hits.here (hits_word hw h1).mono1)))))) rfl
      (Fails.first (fails_tok _ h2)) rfl))
    · exact (hw.head _ fun x hx => letter_ne (by decide) hx).not_prefix
    · exact (hw.head _ fun x hx => letter_ne (by decide) hx).not_prefix

theorem hits_labelSeq {w : Bytes} (h : w = [0x26] ∨ w = [0x40] ∨ Word w) (rest : Bytes) :
    Hits rx D (.node labelSeq) (w ++ [0x3A]) rest (.map [("label", .str w)]) := by
  refine Hits.plain (Hits.seq (Hits.put (m1 := w) (m2 := [0x3A] ++ []) (v := .str w) (Hits.mono1 (Hits.plain (Hits.choice ?_))) rfl
    (Hits.put (m2 := []) (hits_tok _ _ _) rfl hits_items_nil rfl) (by simp)))
  rcases h with rfl | rfl | hw
  · exact Hits.here (hits_str _ _ _).plain
  · exact Fails.next (Fails.plain (fails_str _ (off_cons (by decide)).not_prefix)) (Hits.here (hits_str _ _ _).plain)
  · refine Fails.next (Fails.plain (fails_str _ ?_)) (Fails.next (Fails.plain (fails_str _ ?_))
      (Hits.here (hits_word hw (off_cons (by decide))).mono1))
    · exact (hw.head _ fun x hx => letter_ne (by decide) hx).not_prefix
    · exact (hw.head _ fun x hx => letter_ne (by decide) hx).not_prefix

theorem hits_labeled {lab : Option Bytes} (hl : LabOk lab) (hd : Hits rx D decoTask t f (.parser n))
    (hno : lab = none → NoLabel (t ++ f)) : Hits rx (D + 2) (.node (.rule 30)) (labText lab ++ t) f (.parser (labelled lab n)) := by
  cases lab with
  | none =>
    exact Hits.rule rfl (Hits.choice (Hits.here (Hits.rule rfl (v := .parser n) (v' := .parser n)
      (Hits.seq (Hits.put (m1 := []) (m2 := t ++ []) (v := .undef) (Hits.plain (Fails.exist (fails_labelSeq (by simpa using hno rfl)))) rfl
      (Hits.put (m1 := t) (m2 := []) hd.choice.plain rfl hits_items_nil rfl) (by simp [labText]))) (fun p => rfl)))) (fun p => rfl)
  | some w =>
    exact Hits.rule rfl (Hits.choice (Hits.here (Hits.rule rfl (v := .parser (labelled (some w) n)) (v' := .parser (labelled (some w) n))
      (Hits.seq (Hits.put (m1 := w ++ [0x3A]) (m2 := t ++ []) (v := .map [("label", .str w)]) (Hits.plain (Hits.exist (hits_labelSeq (hl w rfl) _))) rfl
      (Hits.put (m1 := t) (m2 := []) hd.choice.plain rfl hits_items_nil rfl) (by simp [labText]))) (fun p => rfl)))) (fun p => rfl)

theorem hits_unit {w : Bytes} {v : JVal} (hw : Blank w) (h : Hits rx D (.node (.rule 30)) t f v) (hb : Off isBlank (t ++ f)) :
    Hits rx (D + 2) (.node (.rule 31)) (w ++ t) f v := by
  obtain ⟨u, hu⟩ := hits_ws (rx := rx) (D := D) "UNIT[0]" hw hb
  exact Hits.rule rfl (Hits.choice (Hits.here (Hits.rule rfl (v' := v)
    (Hits.seq (Hits.put (m1 := w) (m2 := t ++ []) (hu.eq rfl (by simp) rfl) rfl
      (Hits.put (m1 := t) (m2 := []) h.ref rfl hits_items_nil rfl) (by simp))) (fun p => rfl)))) (fun p => rfl)

end

end Joeson.RuleText
