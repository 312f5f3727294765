import Verif.Props.LispPrint
/-!
# C77: what `List.String` of the Lisp example prints, and whether it can be read
-/

namespace Joeson.Lisp
open Arith Spec RuleText

/-- Goes over a text, `q`: between quotes. `none` if there is a comma that is not between quotes. -/
def scan : Bool → Bytes → Option Bool
  | q, [] => some q
  | q, c :: s => if c = 0x22 then scan (!q) s else if c = 0x2C ∧ q = false then none else scan q s

theorem scan_append : ∀ (q : Bool) (a b : Bytes), scan q (a ++ b) = (scan q a).bind fun q => scan q b
  | q, [], b => by simp [scan]
  | q, c :: a, b => by
    simp only [List.cons_append, scan]
    split
    · exact scan_append _ a b
    · split
      · rfl
      · exact scan_append _ a b

theorem scan_none {a b : Bytes} (h : ∀ c ∈ a, c ≠ 0x22 ∧ c ≠ 0x2C) : scan false (a ++ b) = scan false b := by
  induction a with
  | nil => rfl
  | cons c a ih =>
    have := h c (List.mem_cons_self ..)
    simp [scan, this.1, this.2, ih fun x hx => h x (List.mem_cons_of_mem _ hx)]

theorem scan_quoted : ∀ {w : Bytes} (s : Bytes), 0x22 ∉ w → scan true (w ++ 0x22 :: s) = scan false s
  | [], s, _ => by simp [scan]
  | c :: w, s, h => by
    simp only [List.mem_cons, not_or] at h
    have := scan_quoted s h.2
    simp [scan, Ne.symm h.1, this]

theorem word_scan {w : Bytes} (h : IsWord w ∨ w ∈ symbols) : ∀ c ∈ w, c ≠ 0x22 ∧ c ≠ 0x2C := by
  have letter : ∀ c, IsLetter c → c ≠ 0x22 ∧ c ≠ 0x2C := by
    intro c hc
    constructor <;> (rintro rfl; unfold IsLetter at hc; revert hc; decide)
  have digit : ∀ c, IsDigit c → c ≠ 0x22 ∧ c ≠ 0x2C := by
    intro c hc
    constructor <;> (rintro rfl; unfold IsDigit at hc; revert hc; decide)
  intro c hc
  rcases h with ⟨a, l, rfl, ha, hl⟩ | h
  · rcases List.mem_cons.mp hc with rfl | hc
    · exact letter _ ha
    · rcases hl c hc with h | h | rfl
      · exact letter _ h
      · exact digit _ h
      · decide
  · have : ∀ w ∈ symbols, ∀ c ∈ w, c ≠ 0x22 ∧ c ≠ 0x2C := by decide
    exact this w h c hc

theorem digits_scan {ds : Bytes} (h : ∀ c ∈ ds, IsDigit c) : ∀ c ∈ ds, c ≠ 0x22 ∧ c ≠ 0x2C := by
  intro c hc
  have := h c hc
  constructor <;> (rintro rfl; unfold IsDigit at this; revert this; decide)

theorem sign_scan (neg : Bool) : ∀ c ∈ sign neg, c ≠ 0x22 ∧ c ≠ 0x2C := by
  cases neg <;> simp [sign]

theorem space_scan {w : Bytes} (h : ∀ c ∈ w, IsSpace c) : ∀ c ∈ w, c ≠ 0x22 ∧ c ≠ 0x2C := by
  intro c hc
  rcases h c hc with rfl | rfl | rfl <;> decide

theorem fixed_scan {fmt : Float64 → Bytes} (hf : PrintsFixed fmt) (x : Float64) : ∀ c ∈ fmt x, c ≠ 0x22 ∧ c ≠ 0x2C := by
  rcases hf x with ⟨neg, ds, ds', _, h1, h2, h3⟩ | h | h | h
  · rw [h3]
    intro c hc
    simp only [List.append_assoc, List.mem_append, List.mem_cons] at hc
    rcases hc with hc | hc | rfl | hc
    · exact sign_scan neg c hc
    · exact digits_scan h1 c hc
    · decide
    · exact digits_scan h2 c hc
  all_goals rw [h]; simp

theorem scan_end {a : Bytes} (h : ∀ c ∈ a, c ≠ 0x22 ∧ c ≠ 0x2C) : scan false a = some false := by
  have := scan_none (b := []) h
  rwa [List.append_nil] at this

mutual
/-- In an expression as it is written there are commas between quotes only. -/
theorem text_scan : ∀ e : SExpr, e.Ok → scan false e.text = some false
  | .str w, h => by
    unfold SExpr.Ok at h
    have := scan_quoted [] h
    simpa [SExpr.text, scan] using this
  | .num neg ds, h => by
    unfold SExpr.Ok at h
    rw [SExpr.text, scan_none (sign_scan neg)]
    exact scan_end (digits_scan h.2)
  | .op w, h => by
    unfold SExpr.Ok at h
    exact scan_end (word_scan h)
  | .list l w, h => by
    unfold SExpr.Ok at h
    have h1 := items_scan true l h.1
    rw [SExpr.text, List.append_assoc, List.append_assoc, scan_none (by simp), scan_append, h1]
    show scan false (w ++ [0x29]) = _
    rw [scan_none (space_scan h.2)]
    rfl
theorem items_scan (first : Bool) : ∀ l : SItems, l.Ok first → scan false l.text = some false
  | .nil, _ => rfl
  | .cons w e l, h => by
    unfold SItems.Ok at h
    rw [SItems.text, List.append_assoc, scan_none (space_scan h.1), scan_append, text_scan e h.2.2.1]
    exact items_scan false l h.2.2.2
end

mutual
/-- What is printed for an expression has all its quotes closed. -/
theorem bare_scan {fmt : Float64 → Bytes} (hf : PrintsFixed fmt) : ∀ e : LExpr, e.Plain → scan false (bare fmt e) = some false
  | .str s, h => by
    unfold LExpr.Plain at h
    have := scan_quoted [] h.1
    simpa [bare, scan] using this
  | .num x, _ => by unfold bare; exact scan_end (fixed_scan hf x)
  | .op s, h => by
    unfold LExpr.Plain at h
    unfold bare
    exact scan_end (word_scan h)
  | .list [], _ => by simp [bare, bares, joinWith, scan]
  | .list (e :: l), h => by
    unfold LExpr.Plain LExpr.Plains at h
    unfold bare
    rw [join_bares, List.append_assoc, scan_none (by simp), List.append_assoc, scan_append, bare_scan hf e h.1]
    show scan false (bareTail fmt l ++ [0x29]) = _
    rw [scan_append, tail_scan hf l h.2]
    rfl
theorem tail_scan {fmt : Float64 → Bytes} (hf : PrintsFixed fmt) : ∀ l : List LExpr, LExpr.Plains l → scan false (bareTail fmt l) = some false
  | [], _ => rfl
  | e :: l, h => by
    unfold LExpr.Plains at h
    have h1 := bare_scan hf e h.1
    have h2 := tail_scan hf l h.2
    simp only [bareTail, List.cons_append, List.nil_append, scan]
    simp [scan_append, h1, h2]
end

/-- What the loop writes after the first element, without colours. -/
def commaTail (fmt : Float64 → Bytes) : List LExpr → Bytes
  | [] => []
  | e :: l => [0x2C, 0x20] ++ bare fmt e ++ commaTail fmt l

theorem join_commas (fmt : Float64 → Bytes) (e : LExpr) : ∀ l, joinWith [0x2C, 0x20] ((e :: l).map (bare fmt)) = bare fmt e ++ commaTail fmt l := by
  intro l
  induction l generalizing e with
  | nil => simp [joinWith, commaTail]
  | cons e' l ih =>
    have := ih e'
    simp only [List.map_cons, joinWith, commaTail] at this ⊢
    rw [this]
    simp

theorem loop_coloured (fmt : Float64 → Bytes) : ∀ (l : List LExpr) {s b : Bytes}, Coloured s b → Coloured (listLoop fmt false s l) (b ++ commaTail fmt l)
  | [], s, b, h => by simpa [listLoop, commaTail] using h
  | e :: l, s, b, h => by
    have := loop_coloured fmt l ((h.append (.plain [0x2C, 0x20])).append (coloured_string fmt e))
    simpa [listLoop, commaTail] using this

theorem tail_noEscapes {fmt : Float64 → Bytes} (hf : PrintsFixed fmt) : ∀ l : List LExpr, LExpr.Plains l → NoEscapes (commaTail fmt l ++ [0x29]) ∧ NotSecond (commaTail fmt l ++ [0x29])
  | [], _ => ⟨printable_noEscapes (by simp [Printable, commaTail]), by simp [NotSecond, commaTail]⟩
  | e :: l, h => by
    unfold LExpr.Plains at h
    obtain ⟨h1, h2⟩ := bare_noEscapes hf e h.1
    obtain ⟨h3, h4⟩ := tail_noEscapes hf l h.2
    rw [commaTail, List.append_assoc]
    refine ⟨noEscapes_append (noEscapes_append (printable_noEscapes (by simp [Printable])) h1 h2) h3 h4, by simp [NotSecond]⟩

theorem listString_bare {fmt : Float64 → Bytes} (hf : PrintsFixed fmt) (l : List LExpr) (hp : LExpr.Plains l) :
    stripAnsi (listString fmt l) = [0x28] ++ joinWith [0x2C, 0x20] (l.map (bare fmt)) ++ [0x29] := by
  match l, hp with
  | [], _ =>
    have := C55_stripAnsi_partial (.plain [0x28, 0x29]) (printable_noEscapes (by simp [Printable]))
    simpa [listString, listLoop, joinWith] using this
  | e :: l, hp =>
    unfold LExpr.Plains at hp
    obtain ⟨h1, h2⟩ := bare_noEscapes hf e hp.1
    obtain ⟨h3, h4⟩ := tail_noEscapes hf l hp.2
    have hc := (loop_coloured fmt l ((Coloured.plain [0x28]).append (coloured_string fmt e))).append (.plain [0x29])
    rw [List.append_assoc] at hc
    have := C55_stripAnsi_partial hc (noEscapes_append (noEscapes_append (printable_noEscapes (by simp [Printable])) h1 h2) h3 h4)
    rw [join_commas]
    simpa [listString, listLoop] using this

variable {rx : Bytes → Option Regex} {rs rn rw : Regex}

/-- C77: `List.String` prints, but for the colours, the elements as `Expr.String` does, with commas between them. -/
theorem C77_list_string (fmt : Float64 → Bytes) (hf : PrintsFixed fmt) (l : List LExpr) (hp : LExpr.Plains l) :
    stripAnsi (listString fmt l) = [0x28] ++ joinWith [0x2C, 0x20] (l.map fun e => stripAnsi (exprString fmt e)) ++ [0x29] := by
  rw [listString_bare hf l hp]
  congr 3
  induction l with
  | nil => rfl
  | cons e l ih =>
    unfold LExpr.Plains at hp
    rw [List.map_cons, List.map_cons, ih hp.2, C55_stripAnsi_partial (coloured_string fmt e) (bare_noEscapes hf e hp.1).1]

theorem loop_join (fmt : Float64 → Bytes) : ∀ (l : List LExpr) (s : Bytes) (e : LExpr),
    listLoop fmt false (s ++ exprString fmt e) l = s ++ joinWith [0x2C, 0x20] ((e :: l).map (exprString fmt))
  | [], s, e => by simp [listLoop, joinWith]
  | e' :: l, s, e => by
    have := loop_join fmt l (s ++ exprString fmt e ++ [0x2C, 0x20]) e'
    simp only [listLoop, List.map_cons, joinWith] at this ⊢
    rw [if_neg (by decide), this]
    simp

/-- C77: with the colours: the elements have them, the parentheses and commas do not. For any elements. -/
theorem C77_list_string_coloured (fmt : Float64 → Bytes) (l : List LExpr) :
    listString fmt l = [0x28] ++ joinWith [0x2C, 0x20] (l.map (exprString fmt)) ++ [0x29] := by
  match l with
  | [] => rfl
  | e :: l =>
    have := loop_join fmt l [0x28] e
    unfold listString
    rw [listLoop, if_pos rfl, this]

example : listString fixedEx [.op (asc "+"), .op (asc "-")] = asc "(" ++ boldCyan (asc "+") ++ asc ", " ++ boldCyan (asc "-") ++ asc ")" := by
  rw [C77_list_string_coloured]
  simp [joinWith, exprString, show asc "(" = [0x28] by decide, show asc ", " = [0x2C, 0x20] by decide, show asc ")" = [0x29] by decide]

/-- C77: what it prints for two or more elements cannot be read as anything, whatever they are: the grammar has no commas. -/
theorem C77_list_string_unreadable (h : Classes rx rs rn rw) (f : Int → Float64) (u : UserString) (fmt : Float64 → Bytes) (hf : PrintsFixed fmt)
    (e e' : LExpr) (l : List LExpr) (hp : LExpr.Plains (e :: e' :: l)) (v : Ast) :
    ¬ LibGives rx (lispLines rs rn rw) (lispOps f u) (stripAnsi (listString fmt (e :: e' :: l))) (.ok (some (v, []))) := by
  rw [listString_bare hf _ hp]
  intro hg
  obtain ⟨x, w, w', y, hx, hw, hw', ht, -⟩ := C66_only h f u _ _ hg
  unfold LExpr.Plains at hp
  have h1 : scan false ([0x28] ++ joinWith [0x2C, 0x20] ((e :: e' :: l).map (bare fmt)) ++ [0x29]) = none := by
    rw [join_commas, List.append_assoc, scan_none (by simp), List.append_assoc, scan_append, bare_scan hf e hp.1]
    simp [commaTail, scan]
  rw [ht, List.append_assoc, scan_none (space_scan hw), scan_append, text_scan x hx] at h1
  have h2 : scan false w' = none := h1
  rw [scan_end (space_scan hw')] at h2
  cases h2

/-- C77: with less than two elements there is no comma, and it is read back, if there are no numbers. -/
theorem C77_list_string_read (h : Classes rx rs rn rw) (f : Int → Float64) (u : UserString) (fmt : Float64 → Bytes) (hf : PrintsFixed fmt)
    (l : List LExpr) (hl : l.length ≤ 1) (hn : LExpr.NoNums l) (hp : LExpr.Plains l) (hd : (LExpr.list l).nest ≤ 500) :
    LibGives rx (lispLines rs rn rw) (lispOps f u) (stripAnsi (listString fmt l)) (.ok (some ((LExpr.list l).ast, []))) := by
  have hp' : (LExpr.list l).Plain := by unfold LExpr.Plain; exact hp
  have := C77_reads_back_partial h f u fmt hf (.list l) (by unfold LExpr.NoNum; exact hn) hp' hd
  rw [C55_stripAnsi_partial (coloured_string fmt (.list l)) (bare_noEscapes hf _ hp').1] at this
  have he : [0x28] ++ joinWith [0x2C, 0x20] (l.map (bare fmt)) ++ [0x29] = bare fmt (.list l) := by
    rcases l with _ | ⟨e, _ | ⟨e', l⟩⟩
    · simp [bare, bares, joinWith]
    · simp [bare, bares, joinWith]
    · simp at hl
  rw [listString_bare hf l hp, he]
  exact this

theorem libGives_value {L : List GLine} {P : PureOps V} {text : Bytes} {v v' : V} (h : LibGives rx L P text (.ok (some (v, []))))
    (h' : LibGives rx L P text (.ok (some (v', [])))) : v = v' := by
  obtain ⟨lines, m0, h1, h2, k0, h3⟩ := h
  obtain ⟨lines', m0', h1', h2', k0', h3'⟩ := h'
  have e1 := h1.symm.trans h1'
  have e2 := h2.symm.trans h2'
  clear h1 h1' h2 h2'
  injection e1 with e1
  injection e2 with e2
  subst e1 e2
  obtain ⟨m, h4, k1, h5⟩ := h3 (max k0 k0') (Nat.le_max_left ..)
  obtain ⟨m', h4', k1', h5'⟩ := h3' (max k0 k0') (Nat.le_max_right ..)
  have e3 := h4.symm.trans h4'
  clear h4 h4'
  injection e3 with e3
  subst e3
  have h6 := h5 (max k1 k1') (Nat.le_max_left ..)
  have h6' := h5' (max k1 k1') (Nat.le_max_right ..)
  generalize (parseString (P.ops Unit) m.g {} [] (max k1 k1') () text).1 = o at h6 h6'
  simp only [Gives, if_true] at h6 h6'
  obtain ⟨s, h6⟩ := h6
  obtain ⟨s', h6'⟩ := h6'
  rw [h6] at h6'
  injection h6' with h7
  injection h7 with h8 _
  injection h8

/-- C77: different expressions without numbers are printed differently, colours or not. -/
theorem C77_printed_apart (fmt : Float64 → Bytes) (hf : PrintsFixed fmt) (e e' : LExpr) (hn : e.NoNum) (hn' : e'.NoNum) (hp : e.Plain) (hp' : e'.Plain)
    (hd : e.nest ≤ 500) (hd' : e'.nest ≤ 500) (heq : stripAnsi (exprString fmt e) = stripAnsi (exprString fmt e')) : e = e' := by
  have h1 := C77_reads_back_partial classes_ex (fun _ => 0) (fun _ _ => []) fmt hf e hn hp hd
  have h2 := C77_reads_back_partial classes_ex (fun _ => 0) (fun _ _ => []) fmt hf e' hn' hp' hd'
  rw [heq] at h1
  have := congrArg toExpr (libGives_value h1 h2)
  rw [C66_values, C66_values] at this
  exact Option.some.inj this

/-- The string `car` and the operator `car`; an empty list in a list. -/
example : stripAnsi (exprString fixedEx (.str (asc "car"))) ≠ stripAnsi (exprString fixedEx (.op (asc "car"))) ∧
    stripAnsi (exprString fixedEx (.list [])) ≠ stripAnsi (exprString fixedEx (.list [.list []])) := by
  have hw : IsWord (asc "car") := ⟨0x63, [0x61, 0x72], by kernel_rfl, by unfold IsLetter; decide, by unfold IsLater IsLetter IsDigit; decide⟩
  refine ⟨fun h => ?_, fun h => ?_⟩
  · have := C77_printed_apart fixedEx fixedEx_prints _ _ (by simp [LExpr.NoNum]) (by simp [LExpr.NoNum])
      (by simp only [LExpr.Plain]; decide) (by simp only [LExpr.Plain]; exact .inl hw) (by decide) (by decide) h
    cases this
  · have := C77_printed_apart fixedEx fixedEx_prints _ _ (by simp [LExpr.NoNum, LExpr.NoNums]) (by simp [LExpr.NoNum, LExpr.NoNums])
      (by simp [LExpr.Plain, LExpr.Plains]) (by simp [LExpr.Plain, LExpr.Plains]) (by decide) (by decide) h
    cases this

/-- `(car, "a,b", 1.000000)` -/
example : stripAnsi (listString fixedEx [.op (asc "car"), .str (asc "a,b"), .num 0x3FF0000000000000]) = asc "(car, \"a,b\", 1.000000)" := by
  rw [listString_bare fixedEx_prints]
  · kernel_rfl
  · simp only [LExpr.Plain, LExpr.Plains, and_true]
    exact ⟨.inl ⟨0x63, [0x61, 0x72], by kernel_rfl, by unfold IsLetter; decide, by unfold IsLater IsLetter IsDigit; decide⟩, by decide, by decide, by decide, by decide⟩

example (v : Ast) : ¬ LibGives lispRx (lispLines Sample.notQuoteRe numberRe wordRe) (lispOps (fun _ => 0) (fun _ _ => []))
    (stripAnsi (listString fixedEx [.op [0x2B], .op [0x2B]])) (.ok (some (v, []))) :=
  C77_list_string_unreadable classes_ex _ _ _ fixedEx_prints _ _ _ (by simp only [LExpr.Plain, LExpr.Plains, and_true]; exact ⟨.inr (by decide), .inr (by decide)⟩) v

example : LibGives lispRx (lispLines Sample.notQuoteRe numberRe wordRe) (lispOps (fun _ => 0) (fun _ _ => []))
    (stripAnsi (listString fixedEx [.str (asc "a,b")])) (.ok (some ((LExpr.list [.str (asc "a,b")]).ast, []))) :=
  C77_list_string_read classes_ex _ _ _ fixedEx_prints _ (by decide) (by simp [LExpr.NoNum, LExpr.NoNums])
    (by simp only [LExpr.Plain, LExpr.Plains, and_true]; exact ⟨by decide, by decide, by decide, by decide⟩) (by decide)

end Joeson.Lisp
