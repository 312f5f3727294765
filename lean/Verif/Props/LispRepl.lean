import Verif.Model.LispRepl
import Verif.Spec.LispRepl
import Verif.Props.LispOnly
import Verif.Props.LispMachine
import Verif.Props.LispPrint
/-!
# C78: the loop of the Lisp example
-/

namespace Joeson.Lisp
open Arith RuleText

/-! ## What is read -/

theorem uptoNewline_mem : ∀ {c : Bytes}, 0x0A ∈ c → 0x0A ∉ c.dropLast → uptoNewline c = c
  | [], h, _ => by cases h
  | [a], h, _ => by
    have : a = 0x0A := (List.mem_singleton.mp h).symm
    simp [uptoNewline, this]
  | a :: b :: s, h, h' => by
    rw [List.dropLast_cons_cons, List.mem_cons, not_or] at h'
    rw [uptoNewline, if_neg (fun e => h'.1 e.symm), uptoNewline_mem (c := b :: s) ((List.mem_cons.mp h).resolve_left h'.1) h'.2]

theorem uptoNewline_append {a s : Bytes} (h : 0x0A ∉ a) : uptoNewline (a ++ 0x0A :: s) = a ++ [0x0A] := by
  induction a with
  | nil => simp [uptoNewline]
  | cons c a ih =>
    rw [List.mem_cons, not_or] at h
    rw [List.cons_append, uptoNewline, if_neg (fun e => h.1 e.symm), ih h.2, List.cons_append]

theorem inputs_lines : ∀ (chunks : List Bytes) (acc : Bytes), 0x0A ∉ acc → (∀ c ∈ chunks, 0x0A ∉ c.dropLast) → Lines (acc ++ chunks.flatten) (inputs acc chunks)
  | [], acc, h, _ => by simpa [inputs] using Lines.last h
  | c :: cs, acc, h, hc => by
    have hcs : ∀ c ∈ cs, 0x0A ∉ c.dropLast := fun x hx => hc x (List.mem_cons_of_mem _ hx)
    have h0 := hc c (List.mem_cons_self ..)
    rw [inputs]
    split
    · rename_i hm
      rw [uptoNewline_mem hm h0]
      have hne : c ≠ [] := by rintro rfl; cases hm
      have hl : c.getLast hne = 0x0A := by
        have := hm
        rw [← List.dropLast_concat_getLast hne, List.mem_append] at this
        exact (List.mem_singleton.mp (this.resolve_left h0)).symm
      have hd : c = c.dropLast ++ [0x0A] := by
        conv => lhs; rw [← List.dropLast_concat_getLast hne, hl]
      have ih := inputs_lines cs [] (by simp) hcs
      have := Lines.line (a := acc ++ c.dropLast) (by simp [h, h0]) ih
      have e1 : (acc ++ c.dropLast) ++ 0x0A :: ([] ++ cs.flatten) = acc ++ (c :: cs).flatten := by
        rw [List.flatten_cons]
        conv => rhs; rw [hd]
        simp
      have e2 : acc ++ c.dropLast ++ [0x0A] = acc ++ c := by
        conv => rhs; rw [hd]
        simp
      rwa [e1, e2] at this
    · rename_i hm
      have ih := inputs_lines cs (acc ++ c) (by simp [h, hm]) hcs
      simpa using ih

/-- C78: if no call of `Read` goes past a newline, as when lines are typed at a terminal, the loop gets every line of the input. -/
theorem C78_typed_lines_partial (chunks : List Bytes) (h : ∀ c ∈ chunks, 0x0A ∉ c.dropLast) : Lines chunks.flatten (inputs [] chunks) := by
  simpa using inputs_lines chunks [] (by simp) h

/-- C78: what else a call of `Read` gives after a newline is lost. -/
theorem C78_rest_is_lost (a s : Bytes) (ha : 0x0A ∉ a) (cs : List Bytes) :
    inputs [] ((a ++ 0x0A :: s) :: cs) = (a ++ [0x0A]) :: inputs [] cs := by
  rw [inputs, if_pos (by simp), uptoNewline_append ha, List.nil_append]

/-- C78: there are at most as many answers as calls of `Read`. -/
theorem C78_at_most_reads : ∀ (chunks : List Bytes) (acc : Bytes), (inputs acc chunks).length ≤ chunks.length
  | [], _ => Nat.le_refl _
  | c :: cs, acc => by
    rw [inputs]
    split
    · have := C78_at_most_reads cs []
      simp only [List.length_cons]; omega
    · have := C78_at_most_reads cs (acc ++ c)
      simp only [List.length_cons]; omega

/-- C78: a file with any number of lines that is read at once, say from a pipe: only the first line is answered. The others are lines too. -/
theorem C78_file_first_line_only (a : Bytes) (ha : 0x0A ∉ a) (ls : List Bytes) (hl : ∀ l ∈ ls, 0x0A ∉ l) :
    inputs [] [a ++ 0x0A :: (ls.flatMap (· ++ [0x0A]))] = [a ++ [0x0A]] ∧
    Lines (a ++ 0x0A :: (ls.flatMap (· ++ [0x0A]))) ((a ++ [0x0A]) :: ls.map (· ++ [0x0A])) := by
  refine ⟨by rw [C78_rest_is_lost a _ ha]; rfl, .line ha ?_⟩
  induction ls with
  | nil => exact .last (by simp)
  | cons l ls ih =>
    have := Lines.line (hl l (List.mem_cons_self ..)) (ih fun x hx => hl x (List.mem_cons_of_mem _ hx))
    simpa using this

/-- C78: a last line without a newline is ignored, however it is read. -/
theorem C78_unterminated (chunks : List Bytes) (h : ∀ c ∈ chunks, 0x0A ∉ c) : inputs [] chunks = [] := by
  suffices ∀ acc, inputs acc chunks = [] from this []
  induction chunks with
  | nil => intro; rfl
  | cons c cs ih =>
    intro acc
    rw [inputs, if_neg (h c (List.mem_cons_self ..))]
    exact ih (fun x hx => h x (List.mem_cons_of_mem _ hx)) _

/-- Two lines, typed, and from a file. -/
example : inputs [] [asc "(+ 1 2)\n", asc "(+ 3", asc " 4)\n"] = [asc "(+ 1 2)\n", asc "(+ 3 4)\n"] ∧ inputs [] [asc "(+ 1 2)\n(+ 3 4)\n"] = [asc "(+ 1 2)\n"] := by
  decide +kernel

/-! ## What is answered -/

variable {rx : Bytes → Option Regex} {rs rn rw : Regex}

/-- The outcome alone. -/
def outcome {V H : Type} : Out (Outcome V × St V H) → Out (Outcome V)
  | .ok (o, _) => .ok o
  | .panic p => .panic p
  | .oof => .oof

theorem replLine_ne (i : Bytes) : replLine i ≠ [] := by
  unfold replLine
  simp only
  split
  · rename_i h; intro h'; rw [h'] at h; cases h
  · simp

/-- What `ParseString` can answer. -/
def Read (f : Int → Float64) (text : Bytes) (o : Out (Outcome Ast)) : Prop :=
  (∃ e x, IsText text e ∧ e.val f = some x ∧ o = .ok (.value x.ast)) ∨
  (∃ r, (∀ e, ¬ IsText text e) ∧ o = .ok (.error r)) ∨
  ((∀ e x, IsText text e → e.val f ≠ some x) ∧ HasBig text ∧ o = .panic .notANumber) ∨
  ((∀ e x, IsText text e → e.nest ≤ 500 → e.val f ≠ some x) ∧ o = .panic .stackOverflow)

theorem isText_yields {f : Int → Float64} {u : UserString} {N : Nat} (h : Classes rx rs rn rw) {text : Bytes} {e : SExpr} (ht : IsText text e) :
    Yields (lispOps f u) N (lispLines rs rn rw) (2 * e.nest + 5) (.lines (lispLines rs rn rw)) text (res (e.val f) []) := by
  obtain ⟨hok, w, w', hw, hw', rfl⟩ := ht
  have := top_reads (f := f) (u := u) (N := N) (s := []) h.finds e hok hw hw' NoneOf.nil
    (.inr (by rw [List.append_nil]; exact fun c s' h => .inl (hw' c (by rw [h]; exact List.mem_cons_self ..))))
  rwa [List.append_nil] at this

theorem read_of {f : Int → Float64} {u : UserString} (h : Classes rx rs rn rw) {text : Bytes} (hne : text ≠ []) {d : Nat} {r : VRes Ast}
    (hy : Yields (lispOps f u) text.length (lispLines rs rn rw) d (.lines (lispLines rs rn rw)) text r)
    {o : Out (Outcome Ast × St Ast Unit)} (hg : Gives text r o) : Read f text (outcome o) := by
  have det : ∀ e, IsText text e → r = res (e.val f) [] := fun e he => yields_det (lisp_one _ _ _) hy (isText_yields h he)
  rcases inv_top h.finds hy with rfl | ⟨e, w, w', s', x, he, hw, hw', _, ht, hx, rfl⟩ | ⟨rfl, hb⟩
  · simp only [Gives, if_neg hne] at hg
    obtain ⟨rep, s, rfl, _⟩ := hg
    refine .inr (.inl ⟨rep, fun e he => ?_, rfl⟩)
    have := det e he
    cases hv : e.val f <;> rw [hv] at this <;> cases this
  · by_cases hs : s' = []
    · subst hs
      simp only [Gives, if_true] at hg
      obtain ⟨s, rfl⟩ := hg
      exact .inl ⟨e, x, ⟨he, w, w', hw, hw', by simpa using ht⟩, hx, rfl⟩
    · simp only [Gives, if_neg hs] at hg
      obtain ⟨rep, s, rfl, _⟩ := hg
      refine .inr (.inl ⟨rep, fun e he => ?_, rfl⟩)
      have := det e he
      cases hv : e.val f <;> rw [hv] at this <;> simp only [res, Except.ok.injEq, Option.some.injEq, Prod.mk.injEq, reduceCtorEq] at this
      exact hs this.2
  · simp only [Gives] at hg
    subst hg
    refine .inr (.inr (.inl ⟨fun e x he hx => ?_, hb, rfl⟩))
    have := det e he
    rw [hx] at this
    cases this

theorem session_says {F : FloatOps} {fmt : Float64 → Bytes} {kf : Nat} {parse : Bytes → Out (Outcome Ast)} :
    ∀ (is : List Bytes), (∀ i ∈ is, Read F.ofInt (replLine i) (parse (replLine i))) → ∀ m, Says F fmt kf m is (session parse F fmt kf m is)
  | [], _, _ => .bye
  | i :: is, hr, m => by
    have ih := session_says (fmt := fmt) (kf := kf) is fun i hi => hr i (List.mem_cons_of_mem _ hi)
    rw [session]
    rcases hr i (List.mem_cons_self ..) with ⟨e, x, ht, hx, ho⟩ | ⟨r, ht, ho⟩ | ⟨ht, hb, ho⟩ | ⟨ht, ho⟩
    · rw [ho]
      simp only [toExpr_ast]
      cases he : eval F kf x m with
      | error f => exact .fault ⟨e, ht, hx⟩ he
      | ok p =>
        obtain ⟨y, m'⟩ := p
        exact .value ⟨e, ht, hx⟩ he (ih m')
    · rw [ho]
      exact .wrong ht (ih m)
    · rw [ho]
      exact .big (fun x ⟨e, h, h'⟩ => ht e x h h') hb
    · rw [ho]
      exact .deep (fun x ⟨e, h, hn, h'⟩ => ht e x h hn h')

/-- C78: the answers to any input, with the library's parser. The grammar of the example can be built, and for all inputs the loop prints what it should; in particular it
always ends, and what "should not happen" (main.go:58) does not happen. -/
theorem C78_session (h : Classes rx rs rn rw) (F : FloatOps) (u : UserString) (fmt : Float64 → Bytes) :
    ∃ lines m0, linesOf (lispLines rs rn rw) = .ok lines ∧ joesonMade = .ok m0 ∧ ∃ k0, ∀ k, k0 ≤ k →
      ∃ gm, grammarFromLines (compileRule rx m0.g {} k) "" lines = .ok gm ∧
        ∀ (is : List Bytes), ∃ k1, ∀ k', k1 ≤ k' → ∀ (kf : Nat) (m : Machine),
          Says F fmt kf m is (session (fun s => outcome (parseString ((lispOps F.ofInt u).ops Unit) gm.g {} [] k' () s).1) F fmt kf m is) := by
  obtain ⟨lines, m0, h1, h2, k0, h3⟩ := C53_rule_text_values_partial rx {} rfl (lispLines rs rn rw) (lisp_names rs rn rw) (lisp_texts h) ""
  refine ⟨lines, m0, h1, h2, k0, fun k hk => ?_⟩
  obtain ⟨gm, h4, h5⟩ := h3 k hk
  refine ⟨gm, h4, ?_⟩
  intro is
  have key : ∀ i : Bytes, ∃ k2, ∀ k', k2 ≤ k' → Read F.ofInt (replLine i) (outcome (parseString ((lispOps F.ofInt u).ops Unit) gm.g {} [] k' () (replLine i)).1) := by
      intro i
      by_cases hfl : ∃ e x, IsText (replLine i) e ∧ e.nest ≤ 500 ∧ e.val F.ofInt = some x
      · obtain ⟨e, x, he, hn, hx⟩ := hfl
        have hy := isText_yields (f := F.ofInt) (u := u) (N := (replLine i).length) h he
        obtain ⟨k2, h6⟩ := h5 Ast Unit (lispOps F.ofInt u) (fun _ _ => rfl) {} rfl [] (by simp) () _ _ _ hy
        exact ⟨k2, fun k' hk' => read_of h (replLine_ne i) hy ((h6 k' hk').resolve_right fun h => absurd h.1 (by omega))⟩
      · obtain ⟨d, r, hy⟩ := wf_has (C68_lisp_well_formed h.finds.s.ne (number_ne h.finds.n) (word_ne h.finds.w)) (lispOps F.ofInt u) (replLine i).length _ (replLine i) rfl (.lines (lispLines rs rn rw))
          (C68_lisp_well_formed h.finds.s.ne (number_ne h.finds.n) (word_ne h.finds.w)).top
        obtain ⟨k2, h6⟩ := h5 Ast Unit (lispOps F.ofInt u) (fun _ _ => rfl) {} rfl [] (by simp) () _ _ _ hy
        refine ⟨k2, fun k' hk' => ?_⟩
        rcases h6 k' hk' with hg | ⟨_, hg⟩
        · exact read_of h (replLine_ne i) hy hg
        · rw [hg]
          exact .inr (.inr (.inr ⟨fun e x he hn hx => hfl ⟨e, x, he, hn, hx⟩, rfl⟩))

  have all : ∃ k1, ∀ k', k1 ≤ k' → ∀ i ∈ is, Read F.ofInt (replLine i) (outcome (parseString ((lispOps F.ofInt u).ops Unit) gm.g {} [] k' () (replLine i)).1) := by
    induction is with
    | nil => exact ⟨0, fun _ _ _ h => by cases h⟩
    | cons i is ih =>
      obtain ⟨k1, ih⟩ := ih
      obtain ⟨k2, hi⟩ := key i
      refine ⟨max k1 k2, fun k' hk' j hj => ?_⟩
      rcases List.mem_cons.mp hj with rfl | hj
      · exact hi k' (Nat.le_trans (Nat.le_max_right _ _) hk')
      · exact ih k' (Nat.le_trans (Nat.le_max_left _ _) hk') j hj
  obtain ⟨k1, all⟩ := all
  exact ⟨k1, fun k' hk' kf m => session_says (parse := fun s => outcome (parseString ((lispOps F.ofInt u).ops Unit) gm.g {} [] k' () s).1) is (all k' hk') m⟩

theorem holds_unique {f : Int → Float64} {i : Bytes} {x y : LExpr} (hx : Holds f i x) (hy : Holds f i y) : x = y := by
  obtain ⟨e, ⟨he, w, w', hw, hw', ht⟩, hx⟩ := hx
  obtain ⟨e', ⟨he', v, v', hv, hv', ht'⟩, hy⟩ := hy
  have := C66_unambiguous f e e' he he' w w' v v' hw hw' hv hv' (ht.symm.trans ht')
  rw [hx, hy] at this
  exact Option.some.inj this

theorem HoldsFlat.holds {f : Int → Float64} {i : Bytes} {x : LExpr} (h : HoldsFlat f i x) : Holds f i x :=
  let ⟨e, ht, _, hx⟩ := h; ⟨e, ht, hx⟩

/-- C78: if the inputs are expressions, not nested too deeply, that the machine can evaluate, then their values are printed, one after the other, and the loop ends with the input. -/
theorem C78_values (F : FloatOps) (fmt : Float64 → Bytes) (k : Nat) (m m' : Machine) (is : List Bytes) (xs ys : List LExpr) (hi : List.Forall₂ (HoldsFlat F.ofInt) is xs)
    (he : Evaluates F k m xs ys m') (r : List Said × End) (hr : Says F fmt k m is r) : r = (ys.map fun y => .value (exprString fmt y), .bye) := by
  induction hi generalizing m ys r with
  | nil => cases he; cases hr; rfl
  | cons hx _ ih =>
    cases he with
    | cons he hes =>
      cases hr with
      | value hx' he' hr' =>
        cases holds_unique hx.holds hx'
        rw [he] at he'
        cases he'
        cases ih _ _ hes _ hr'
        rfl
      | wrong h => obtain ⟨e, ht, _⟩ := hx; exact absurd ht (h e)
      | fault hx' he' =>
        cases holds_unique hx.holds hx'
        rw [he] at he'
        cases he'
      | big h => exact absurd hx.holds (h _)
      | deep h => exact absurd hx (h _)

/-- C78: the first expression that the machine cannot evaluate ends the program: inputs after it are not answered. -/
theorem C78_fault_ends (F : FloatOps) (fmt : Float64 → Bytes) (k : Nat) (m : Machine) (i : Bytes) (is : List Bytes) (x : LExpr) (f : Fault) (hi : HoldsFlat F.ofInt i x)
    (he : eval F k x m = .error f) (r : List Said × End) (hr : Says F fmt k m (i :: is) r) : r = ([], .fault f) := by
  cases hr with
  | value hx' he' hr' =>
    cases holds_unique hi.holds hx'
    rw [he] at he'
    cases he'
  | wrong h => obtain ⟨e, ht, _⟩ := hi; exact absurd ht (h e)
  | fault hx' he' =>
    cases holds_unique hi.holds hx'
    rw [he] at he'
    cases he'
    rfl
  | big h => exact absurd hi.holds (h _)
  | deep h => exact absurd hi (h _)

/-- C78: what is wrong with a line of text does not change what is defined: the loop goes on as if the line had not been. -/
theorem C78_wrong_goes_on (F : FloatOps) (fmt : Float64 → Bytes) (k : Nat) (m : Machine) (i : Bytes) (is : List Bytes) (hi : ∀ e, ¬ IsText (replLine i) e) (hb : ¬ HasBig (replLine i))
    (r : List Said × End) (hr : Says F fmt k m (i :: is) r) : r = ([], .panic .stackOverflow) ∨ ∃ l e, r = (.parseError :: l, e) ∧ Says F fmt k m is (l, e) := by
  cases hr with
  | value hx => obtain ⟨e, ht, _⟩ := hx; exact absurd ht (hi e)
  | wrong _ hr => exact .inr ⟨_, _, rfl, hr⟩
  | fault hx => obtain ⟨e, ht, _⟩ := hx; exact absurd ht (hi e)
  | big _ h => exact absurd h hb
  | deep _ => exact .inl rfl

/-! ## The assumptions are met -/

/-- `* 6 -7` -/
def timesE : SExpr := .list (.cons [] (.op [0x2A]) (.cons [0x20] (.num false [0x36]) (.cons [0x20] (.num true [0x37]) .nil))) []
/-- `(f 2)` -/
def unknownE : SExpr := .list (.cons [] (.op [0x66]) (.cons [0x20] (.num false [0x32]) .nil)) []

theorem times_ok : timesE.Ok := by
  simp only [timesE, SExpr.Ok, SItems.Ok]
  exact ⟨⟨by simp, by decide, .inr (by decide), by unfold IsSpace; decide, by decide, ⟨by decide, by unfold Arith.IsDigit; decide⟩, by unfold IsSpace; decide, by decide,
    ⟨by decide, by unfold Arith.IsDigit; decide⟩, trivial⟩, by simp⟩

theorem unknown_ok : unknownE.Ok := by
  simp only [unknownE, SExpr.Ok, SItems.Ok]
  exact ⟨⟨by simp, by decide, .inl ⟨_, _, rfl, by unfold IsLetter; decide, by simp⟩, by unfold IsSpace; decide, by decide, ⟨by decide, by unfold Arith.IsDigit; decide⟩, trivial⟩, by simp⟩

theorem times_holds : HoldsFlat intOps.ofInt (asc " * 6 -7\n") (callE "*" [int 6, int (-7)]) :=
  ⟨timesE, ⟨times_ok, [], [], by simp, by simp, by decide +kernel⟩, by decide, by kernel_rfl⟩

theorem unknown_holds : HoldsFlat intOps.ofInt (asc "(f 2)\n") (callE "f" [int 2]) :=
  ⟨unknownE, ⟨unknown_ok, [], [], by simp, by simp, by decide +kernel⟩, by decide, by kernel_rfl⟩

/-- The values of two lines. -/
example : List.Forall₂ (HoldsFlat intOps.ofInt) [asc " * 6 -7\n", asc " * 6 -7\n"] [callE "*" [int 6, int (-7)], callE "*" [int 6, int (-7)]] ∧
    Evaluates intOps 3 newMachine [callE "*" [int 6, int (-7)], callE "*" [int 6, int (-7)]] [int (-42), int (-42)] newMachine :=
  ⟨.cons times_holds (.cons times_holds .nil), .cons (m' := newMachine) (by kernel_rfl) (.cons (m' := newMachine) (by kernel_rfl) .nil)⟩

/-- The loop, started as it is: a line that is answered, and one with a function that is not defined; the third is not answered. -/
example (u : UserString) : ∃ lines m0, linesOf (lispLines Sample.notQuoteRe numberRe wordRe) = .ok lines ∧ joesonMade = .ok m0 ∧ ∃ k0, ∀ k, k0 ≤ k →
      ∃ gm, grammarFromLines (compileRule lispRx m0.g {} k) "" lines = .ok gm ∧ ∃ k1, ∀ k', k1 ≤ k' →
        replMain (fun s => outcome (parseString ((lispOps intOps.ofInt u).ops Unit) gm.g {} [] k' () s).1) intOps fixedEx 3 [asc " * 6", asc " -7\n", asc "(f 2)\n", asc " * 6 -7\n"] =
          ([.value (boldMagenta (fixedEx (ofInt (-42))))], .fault .undefined) := by
  obtain ⟨lines, m0, h1, h2, k0, h3⟩ := C78_session classes_ex intOps u fixedEx
  refine ⟨lines, m0, h1, h2, k0, fun k hk => ?_⟩
  obtain ⟨gm, h4, h5⟩ := h3 k hk
  obtain ⟨k1, h6⟩ := h5 (inputs [] [asc " * 6", asc " -7\n", asc "(f 2)\n", asc " * 6 -7\n"])
  refine ⟨gm, h4, k1, fun k' hk' => ?_⟩
  have h7 := h6 k' hk' 3 newMachine
  rw [replMain]
  generalize session _ _ _ _ _ _ = r at h7 ⊢
  rw [show inputs [] [asc " * 6", asc " -7\n", asc "(f 2)\n", asc " * 6 -7\n"] = [asc " * 6 -7\n", asc "(f 2)\n", asc " * 6 -7\n"] by decide +kernel] at h7
  have he : eval intOps 3 (callE "*" [int 6, int (-7)]) newMachine = .ok (int (-42), newMachine) := by kernel_rfl
  have hf : eval intOps 3 (callE "f" [int 2]) newMachine = .error .undefined := by kernel_rfl
  cases h7 with
  | value hx' he' hr' =>
    cases holds_unique times_holds.holds hx'
    rw [he] at he'
    cases he'
    cases C78_fault_ends _ _ _ _ _ _ _ _ unknown_holds hf _ hr'
    rw [int, exprString]
  | wrong h => obtain ⟨e, ht, _⟩ := times_holds; exact absurd ht (h e)
  | fault hx' he' =>
    cases holds_unique times_holds.holds hx'
    rw [he] at he'
    cases he'
  | big h => exact absurd times_holds.holds (h _)
  | deep h => exact absurd times_holds (h _)

end Joeson.Lisp
