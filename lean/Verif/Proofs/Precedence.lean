import Verif.Spec.Precedence
import Verif.Proofs.Calculator
import Verif.Props.Same
/-! # examples/precedence: what the rules match -/

namespace Joeson
open RuleText Sample Arith Calc

variable {V : Type} {P : PureOps V} {N : Nat} {L : List GLine} {c : Around V} {d : Nat}

/-- What the regular expression `[a-zA-Z0-9]` finds at the beginning of a text: one of these. -/
def FindsGlyph (re : Regex) : Prop :=
  (∀ c s, IsGlyph c → re.find (c :: s) = some (0, 1)) ∧ ∀ s n, re.find s = some (0, n) → ∃ c s', s = c :: s' ∧ IsGlyph c

theorem part_glyph {reG : Regex} (hG : FindsGlyph reG) (hm : "Glyph" ∈ mentionsIn L) (hr : ("Glyph", none, .text (glyphE reG)) ∈ rulesOf L)
    (hc : ∀ s x, c ≠ some ("Glyph", s, x)) (h : Bool) {a : UInt8} (ha : IsGlyph a) (s : Bytes) :
    YieldsL P N L c (d + 1) (.part h (.name "" "Glyph" false)) (a :: s) (.ok (some (P.str [a], s))) := by
  refine YieldsL.bare (.inr rfl) (.name (cb := none) (b := .text (glyphE reG)) (fun x => hc _ x) hm hr ?_)
  refine YieldsL.steady (by decide) hm fun x => ?_
  have h1 : YieldsL P N L (some ("Glyph", a :: s, x)) d (.part false (.re "" reG)) (a :: s) (.ok (some (P.str [a], s))) :=
    YieldsL.bare (.inr rfl) (YieldsL.re (n := 1) (hG.1 a s ha))
  exact YieldsL.text (cb := none) (e := glyphE reG) h1

theorem addOpE_vp : addOpE.vp = .alt "" [.lit "" [0x2B], .lit "" [0x2D]] := by kernel_rfl

theorem part_addOp (hm : "AddOp" ∈ mentionsIn L) (hr : ("AddOp", none, .text addOpE) ∈ rulesOf L)
    (hc : ∀ s x, c ≠ some ("AddOp", s, x)) (h : Bool) (o : AddOp) (s : Bytes) :
    YieldsL P N L c (d + 1) (.part h (.name "" "AddOp" false)) (o.char :: s) (.ok (some (P.str [o.char], s))) := by
  refine YieldsL.bare (.inr rfl) (.name (cb := none) (b := .text addOpE) (fun x => hc _ x) hm hr ?_)
  refine YieldsL.steady (by decide) hm fun x => ?_
  have h1 : YieldsL P N L (some ("AddOp", o.char :: s, x)) d (.part false addOpE.vp) (o.char :: s) (.ok (some (P.str [o.char], s))) := by
    rw [addOpE_vp]
    refine YieldsL.bare (.inr rfl) (.alt ?_)
    cases o with
    | plus => exact .altsDone (YieldsL.bare (.inr rfl) (.lit (b := [0x2B]))) (by simp)
    | minus =>
      refine .altsMiss (YieldsL.bare (.inr rfl) (.litMiss fun s' h => ?_)) (.altsDone (YieldsL.bare (.inr rfl) (.lit (b := [0x2D]))) (by simp))
      simp [AddOp.char] at h
  exact YieldsL.text (cb := none) (e := addOpE) h1

theorem part_addOp_end (hm : "AddOp" ∈ mentionsIn L) (hr : ("AddOp", none, .text addOpE) ∈ rulesOf L)
    (hc : ∀ s x, c ≠ some ("AddOp", s, x)) (h : Bool) :
    YieldsL P N L c (d + 1) (.part h (.name "" "AddOp" false)) [] (.ok none) := by
  refine YieldsL.bare (.inr rfl) (.name (cb := none) (b := .text addOpE) (fun x => hc _ x) hm hr ?_)
  refine YieldsL.steady (by decide) hm fun x => ?_
  have h1 : YieldsL P N L (some ("AddOp", [], x)) d (.part false addOpE.vp) [] (.ok none) := by
    rw [addOpE_vp]
    refine YieldsL.bare (.inr rfl) (.alt ?_)
    exact .altsMiss (YieldsL.bare (.inr rfl) (.litMiss fun s' h => by simp at h)) (.altsMiss (YieldsL.bare (.inr rfl) (.litMiss fun s' h => by simp at h)) .altsEnd)
  exact YieldsL.text (cb := none) (e := addOpE) h1

/-- Does not begin with a blank. -/
def NoBlank (s : Bytes) : Prop := ∀ c s', s = c :: s' → ¬ IsBlank c

theorem blankRe {reB : Regex} (hB : FindsBlank reB) {a : UInt8} (ha : IsBlank a) (s : Bytes) :
    YieldsL P N L c d (.part false (.re "" reB)) (a :: s) (.ok (some (P.str [a], s))) :=
  YieldsL.bare (.inr rfl) (YieldsL.re (n := 1) (hB.1 a s ha))

theorem blankRe_end {reB : Regex} (hB : FindsBlank reB) {s : Bytes} (hs : NoBlank s) : YieldsL P N L c d (.part false (.re "" reB)) s (.ok none) := by
  refine YieldsL.bare (.inr rfl) (.reMiss fun n hn => ?_)
  obtain ⟨b, s', rfl, hb⟩ := hB.2 s n hn
  exact hs _ _ rfl hb

theorem room_none {n : Nat} : Room none n := fun m h => by cases h

theorem more_blank {reB : Regex} (hB : FindsBlank reB) {s : Bytes} (hs : NoBlank s) : ∀ (w : Bytes) (vs : List V), (∀ b ∈ w, IsBlank b) →
    YieldsL P N L c d (.more (.re "" reB) none 0 none vs) (w ++ s) (.ok (some (P.arr (vs ++ w.map fun b => P.str [b]), s)))
  | [], vs, _ => by
    simpa [vstop] using YieldsL.noMore (P := P) (N := N) (L := L) (c := c) (d := d) (mn := 0) (vs := vs) room_none .sepNone (blankRe_end hB hs)
  | b :: w, vs, hw => by
    have h := more_blank hB hs w (vs ++ [P.str [b]]) fun x hx => hw x (List.mem_cons_of_mem _ hx)
    simpa using YieldsL.more (P := P) room_none .sepNone (blankRe hB (hw b (List.mem_cons_self ..)) _) h

theorem rep_blank {reB : Regex} (hB : FindsBlank reB) {w s : Bytes} (hw : ∀ b ∈ w, IsBlank b) (hs : NoBlank s) :
    YieldsL P N L c d (.part false (.rep "" (.re "" reB) none 0 none)) (w ++ s) (.ok (some (P.arr (w.map fun b => P.str [b]), s))) := by
  refine YieldsL.bare (.inr rfl) ?_
  match w, hw with
  | [], _ => exact .repMiss (P := P) (mn := 0) (blankRe_end hB hs)
  | b :: w, hw => exact .rep (blankRe hB (hw b (List.mem_cons_self ..)) _) (more_blank hB hs w _ fun x hx => hw x (List.mem_cons_of_mem _ hx))

theorem part_blank {reB : Regex} (hB : FindsBlank reB) (hm : "_" ∈ mentionsIn L) (hr : ("_", none, .text (blankE reB)) ∈ rulesOf L)
    (hc : ∀ s x, c ≠ some ("_", s, x)) (h : Bool) {w s : Bytes} (hw : ∀ b ∈ w, IsBlank b) (hs : NoBlank s) :
    YieldsL P N L c (d + 1) (.part h (.name "" "_" true)) (w ++ s) (.ok (some (P.arr (w.map fun b => P.str [b]), s))) := by
  refine YieldsL.bare (.inr rfl) (.name (cb := none) (b := .text (blankE reB)) (fun x => hc _ x) hm hr ?_)
  refine YieldsL.steady (by decide) hm fun x => ?_
  exact YieldsL.text (cb := none) (e := blankE reB) (rep_blank hB hw hs)

/-! ## `( _ AddOp _ Glyph )*` -/

theorem glyph_noBlank {a : UInt8} (ha : IsGlyph a) (s : Bytes) : NoBlank (a :: s) := by
  intro c s' h hc
  cases h
  unfold IsGlyph at ha
  unfold IsBlank at hc
  rcases hc with rfl | rfl <;> revert ha <;> decide

theorem op_noBlank (o : AddOp) (s : Bytes) : NoBlank (o.char :: s) := by
  intro c s' h hc
  cases h
  unfold IsBlank at hc
  cases o <;> revert hc <;> decide

theorem nil_noBlank : NoBlank [] := fun _ _ h => by cases h

/-- `_ AddOp _ Glyph` -/
def linkSeq : List VP := [.name "" "_" true, .name "" "AddOp" false, .name "" "_" true, .name "" "Glyph" false]

theorem linkSeq_form : formOf linkSeq = .array := by kernel_rfl

/-- The rules that the grammars of the example share. -/
structure HasParts (reG reB : Regex) (L : List GLine) : Prop where
  glyph : FindsGlyph reG
  blank : FindsBlank reB
  mG : "Glyph" ∈ mentionsIn L
  rG : ("Glyph", none, Body.text (glyphE reG)) ∈ rulesOf L
  mA : "AddOp" ∈ mentionsIn L
  rA : ("AddOp", none, Body.text addOpE) ∈ rulesOf L
  mB : "_" ∈ mentionsIn L
  rB : ("_", none, Body.text (blankE reB)) ∈ rulesOf L

/-- Inside another rule than those. -/
def Outside (c : Around V) : Prop := ∀ nm s x, c = some (nm, s, x) → nm = "Expr"

theorem Outside.ne (hc : Outside c) {nm : String} (h : nm ≠ "Expr") : ∀ s x, c ≠ some (nm, s, x) := fun s x he => h (hc _ _ _ he)

variable {reG reB : Regex}

theorem part_link (hL : HasParts reG reB L) (hc : Outside c) {k : Link} (hk : k.Ok) (s : Bytes) :
    YieldsL P N L c (d + 1) (.part false (.seq "" linkSeq)) (k.text ++ s) (.ok (some (P.arr [P.str [k.op.char], P.str [k.a]], s))) := by
  refine YieldsL.bare (.inr rfl) (.seq ?_)
  rw [linkSeq_form]
  have ht : k.text ++ s = k.w ++ (k.op.char :: (k.w' ++ (k.a :: s))) := by simp [Link.text]
  rw [ht]
  refine .itemsPut (part_blank hL.blank hL.mB hL.rB (hc.ne (by decide)) true hk.1 (op_noBlank _ _)) rfl ?_
  refine .itemsPut (part_addOp hL.mA hL.rA (hc.ne (by decide)) true _ _) rfl ?_
  refine .itemsPut (part_blank hL.blank hL.mB hL.rB (hc.ne (by decide)) true hk.2.1 (glyph_noBlank hk.2.2 _)) rfl ?_
  exact .itemsPut (part_glyph hL.glyph hL.mG hL.rG (hc.ne (by decide)) true hk.2.2 _) rfl (.itemsEnd rfl)

theorem part_link_end (hL : HasParts reG reB L) (hc : Outside c) :
    YieldsL P N L c (d + 1) (.part false (.seq "" linkSeq)) [] (.ok none) := by
  refine YieldsL.bare (.inr rfl) (.seq ?_)
  rw [linkSeq_form]
  refine .itemsPut (part_blank (w := []) hL.blank hL.mB hL.rB (hc.ne (by decide)) true (by simp) nil_noBlank) rfl ?_
  exact .itemsMiss (part_addOp_end hL.mA hL.rA (hc.ne (by decide)) true)

/-- The value of an operator and its operand. -/
def Link.value (P : PureOps V) (k : Link) : V := P.arr [P.str [k.op.char], P.str [k.a]]

theorem more_link (hL : HasParts reG reB L) (hc : Outside c) : ∀ (l : List Link) (vs : List V), (∀ k ∈ l, k.Ok) →
    YieldsL P N L c (d + 1) (.more (.seq "" linkSeq) none 0 none vs) (chain l) (.ok (some (P.arr (vs ++ l.map (Link.value P)), [])))
  | [], vs, _ => by
    simpa [chain, vstop] using YieldsL.noMore (P := P) (N := N) (L := L) (c := c) (d := d + 1) (mn := 0) (vs := vs) room_none .sepNone (part_link_end hL hc)
  | k :: l, vs, hk => by
    have h := more_link hL hc l (vs ++ [k.value P]) fun x hx => hk x (List.mem_cons_of_mem _ hx)
    simpa [chain] using YieldsL.more (P := P) room_none .sepNone (part_link hL hc (hk k (List.mem_cons_self ..)) (chain l)) h

theorem rep_link (hL : HasParts reG reB L) (hc : Outside c) (h : Bool) (l : List Link) (hl : ∀ k ∈ l, k.Ok) :
    YieldsL P N L c (d + 1) (.part h (.rep "" (.seq "" linkSeq) none 0 none)) (chain l) (.ok (some (P.arr (l.map (Link.value P)), []))) := by
  refine YieldsL.bare (.inr rfl) ?_
  match l, hl with
  | [], _ => exact .repMiss (P := P) (mn := 0) (part_link_end hL hc)
  | k :: l, hl => exact .rep (part_link hL hc (hl k (List.mem_cons_self ..)) _) (more_link hL hc l [_] fun x hx => hl x (List.mem_cons_of_mem _ hx))

/-! ## `Expr ( _ AddOp _ Glyph )* | Glyph` -/

variable {u : UserString}

theorem collectOps_links : ∀ l : List Link, collectOps u (l.map (Link.value (mossOps u))) = .ok (l.map fun k => ([k.op.char], .str [k.a]))
  | [] => rfl
  | k :: l => by
    rw [List.map_cons, collectOps, collectOps_links l]
    rfl

theorem growMoss_links (v : Ast) (l : List Link) :
    growMoss u (.arr [v, .arr (l.map (Link.value (mossOps u)))]) = .ok (leftMoss v l) := by
  show (do
    let operations ← collectOps u (l.map (Link.value (mossOps u)))
    pure (operations.foldl (fun moss o => binaryexpr moss o.1 o.2) v) : Except Panic Ast) = _
  rw [collectOps_links]
  show (.ok ((l.map fun k => ([k.op.char], Ast.str [k.a])).foldl (fun moss o => binaryexpr moss o.1 o.2) v) : Except Panic Ast) = _
  rw [List.foldl_map]
  rfl

/-- `Expr ( _ AddOp _ Glyph )*` -/
def precSeq : List VP := [.name "" "Expr" false, .rep "" (.seq "" linkSeq) none 0 none]

theorem precE_vp : precE.vp = .alt "" [.seq "" precSeq, .name "" "Glyph" false] := by kernel_rfl

theorem precSeq_form : formOf precSeq = .array := by kernel_rfl

/-- Without a value of last time: the first operand. -/
theorem prec_first (hL : HasParts reG reB L) {a : UInt8} (ha : IsGlyph a) (s : Bytes) :
    YieldsL (mossOps u) N L (some ("Expr", a :: s, none)) (d + 2) (.body (some 0) (.text precE)) (a :: s) (.ok (some (.str [a], s))) := by
  have h : YieldsL (mossOps u) N L (some ("Expr", a :: s, none)) (d + 1) (.part false precE.vp) (a :: s) (.ok (some (.str [a], s))) := by
    rw [precE_vp]
    refine YieldsL.bare (.inr rfl) (.alt (.altsMiss (YieldsL.bare (.inr rfl) (.seq (.itemsMiss (YieldsL.bare (.inr rfl) (.again rfl))))) (.altsDone ?_ (by simp))))
    exact part_glyph hL.glyph hL.mG hL.rG (by simp) false ha s
  exact YieldsL.text (cb := some 0) h

/-- With a value of last time: the operations that follow. -/
theorem prec_next (hL : HasParts reG reB L) (s : Bytes) (v : Ast) (l : List Link) (hl : ∀ k ∈ l, k.Ok) :
    YieldsL (mossOps u) N L (some ("Expr", s, some (v, chain l))) (d + 2) (.body (some 0) (.text precE)) s (.ok (some (leftMoss v l, []))) := by
  have hc : Outside (some ("Expr", s, some (v, chain l))) := by intro _ _ _ h; cases h; rfl
  have h : YieldsL (mossOps u) N L (some ("Expr", s, some (v, chain l))) (d + 1) (.part false precE.vp) s
      (.ok (some (.arr [v, .arr (l.map (Link.value (mossOps u)))], []))) := by
    rw [precE_vp]
    refine YieldsL.bare (.inr rfl) (.alt (.altsDone (YieldsL.bare (.inr rfl) (.seq ?_)) (by simp)))
    rw [precSeq_form]
    refine .itemsPut (YieldsL.bare (.inr rfl) (.again rfl)) rfl ?_
    exact .itemsPut (rep_link hL hc true l hl) rfl (.itemsEnd rfl)
  have := YieldsL.text (cb := some 0) h
  have hcall : called (mossOps u) N (some 0) (.ok (some (.arr [v, .arr (l.map (Link.value (mossOps u)))], []))) = .ok (some (leftMoss v l, [])) := by
    have : (mossOps u).cb 0 (.arr [v, .arr (l.map (Link.value (mossOps u)))]) (N - ([] : Bytes).length) = .ok (some (leftMoss v l)) := by
      show (growMoss u _).map some = _
      rw [growMoss_links]
      rfl
    simp only [called, this]
  rwa [hcall] at this

theorem chain_pos {l : List Link} (h : l ≠ []) : 0 < (chain l).length := by
  match l, h with
  | k :: l, _ => simp [chain, Link.text]

theorem prec_rule {c : Around Ast} (hL : HasParts reG reB L) (hm : "Expr" ∈ mentionsIn L) {a : UInt8} (ha : IsGlyph a) (l : List Link) (hl : ∀ k ∈ l, k.Ok) :
    YieldsL (mossOps u) N L c (d + 2) (.rule "Expr" (some 0) (.text precE)) (a :: chain l) (.ok (some (leftMoss (.str [a]) l, []))) := by
  by_cases he : l = []
  · subst he
    refine YieldsL.grown (n := 1) (fun i => if i = 0 then none else some (Ast.str [a], [])) (by decide) hm rfl ?_ ?_ ?_
    · intro i hi
      have : i = 0 := by omega
      subst this
      simp [Exceeds]
    · simp [Exceeds]
    · intro i hi
      have : i = 0 ∨ i = 1 := by omega
      rcases this with rfl | rfl
      · exact prec_first hL ha []
      · exact prec_next hL _ (.str [a]) [] (by simp)
  · refine YieldsL.grown (n := 2) (fun i => if i = 0 then none else if i = 1 then some (Ast.str [a], chain l) else some (leftMoss (.str [a]) l, [])) (by decide) hm rfl ?_ ?_ ?_
    · intro i hi
      have : i = 0 ∨ i = 1 := by omega
      rcases this with rfl | rfl
      · simp [Exceeds]
      · simpa [Exceeds] using chain_pos he
    · simp [Exceeds]
    · intro i hi
      have : i = 0 ∨ i = 1 ∨ i = 2 := by omega
      rcases this with rfl | rfl | rfl
      · exact prec_first hL ha _
      · exact prec_next hL _ (.str [a]) l hl
      · exact prec_next hL _ _ [] (by simp)

/-! ## `Expr ( AddOp Expr )* | Glyph` -/

/-- `AddOp Expr` -/
def rightSeq : List VP := [.name "" "AddOp" false, .name "" "Expr" false]

theorem rightSeq_form : formOf rightSeq = .array := by kernel_rfl

namespace Sample

/-- `Expr ( AddOp Expr )* | Glyph` -/
def rightE : Expr :=
  .choice [] (.cons [] none (.prim (.ref (asc "Expr"))) (.one [0x20] none (.star (.group (.single
    (.cons [0x20] none (.prim (.ref (asc "AddOp"))) (.one [0x20] none (.prim (.ref (asc "Expr"))))) [0x20])) none)))
    [0x20] (.one (.one [0x20] none (.prim (.ref (asc "Glyph"))))) [] []

/-- examples/precedence/precedence_test.go:174-179 -/
def rightLines (reG : Regex) : List GLine :=
  [.alt "" none (.text refExprE),
   .incl "Expr" (some 0) (.text rightE),
   .incl "AddOp" none (.text addOpE),
   .incl "Glyph" none (.text (glyphE reG))]

/-- The text is that of the test. -/
example : rightE.text = asc "Expr ( AddOp Expr )* | Glyph" := by kernel_rfl

end Sample

theorem right_mentions (reG : Regex) : mentionsIn (rightLines reG) = ["Expr", "Expr", "AddOp", "Expr", "Glyph"] := by kernel_rfl

theorem right_rules (reG : Regex) : rulesOf (rightLines reG) = [("Expr", some 0, .text rightE), ("AddOp", none, .text addOpE), ("Glyph", none, .text (glyphE reG))] := rfl

theorem rightE_vp : rightE.vp = .alt "" [.seq "" [.name "" "Expr" false, .rep "" (.seq "" rightSeq) none 0 none], .name "" "Glyph" false] := by kernel_rfl

theorem right_form : formOf [.name "" "Expr" false, .rep "" (.seq "" rightSeq) none 0 none] = .array := by kernel_rfl

section
variable {reG : Regex}

/-- Without a value of last time: the first operand. -/
theorem right_first (hG : FindsGlyph reG) {a : UInt8} (ha : IsGlyph a) (s : Bytes) :
    YieldsL (mossOps u) N (rightLines reG) (some ("Expr", a :: s, none)) (d + 2) (.body (some 0) (.text rightE)) (a :: s) (.ok (some (.str [a], s))) := by
  have h : YieldsL (mossOps u) N (rightLines reG) (some ("Expr", a :: s, none)) (d + 1) (.part false rightE.vp) (a :: s) (.ok (some (.str [a], s))) := by
    rw [rightE_vp]
    refine YieldsL.bare (.inr rfl) (.alt (.altsMiss (YieldsL.bare (.inr rfl) (.seq (.itemsMiss (YieldsL.bare (.inr rfl) (.again rfl))))) (.altsDone ?_ (by simp))))
    exact part_glyph hG (by rw [right_mentions]; decide) (by rw [right_rules]; simp) (by simp) false ha s
  exact YieldsL.text (cb := some 0) h

theorem right_op_end {c : Around Ast} (hc : Outside c) : YieldsL (mossOps u) N (rightLines reG) c (d + 1) (.part false (.seq "" rightSeq)) [] (.ok none) := by
  refine YieldsL.bare (.inr rfl) (.seq ?_)
  rw [rightSeq_form]
  exact .itemsMiss (part_addOp_end (by rw [right_mentions]; decide) (by rw [right_rules]; simp) (hc.ne (by decide)) true)

theorem growMoss_one (v : Ast) (o : AddOp) (w : Ast) : growMoss u (.arr [v, .arr [.arr [.str [o.char], w]]]) = .ok (binaryexpr v [o.char] w) := rfl

theorem growMoss_none (v : Ast) : growMoss u (.arr [v, .arr []]) = .ok v := rfl

/-- At the end of the text: nothing more. -/
theorem right_last (s : Bytes) (v : Ast) :
    YieldsL (mossOps u) N (rightLines reG) (some ("Expr", s, some (v, []))) (d + 2) (.body (some 0) (.text rightE)) s (.ok (some (v, []))) := by
  have hc : Outside (some ("Expr", s, some (v, ([] : Bytes)))) := by intro _ _ _ h; cases h; rfl
  have h : YieldsL (mossOps u) N (rightLines reG) (some ("Expr", s, some (v, []))) (d + 1) (.part false rightE.vp) s (.ok (some (.arr [v, .arr []], []))) := by
    rw [rightE_vp]
    refine YieldsL.bare (.inr rfl) (.alt (.altsDone (YieldsL.bare (.inr rfl) (.seq ?_)) (by simp)))
    rw [right_form]
    refine .itemsPut (YieldsL.bare (.inr rfl) (.again rfl)) rfl ?_
    exact .itemsPut (YieldsL.bare (.inr rfl) (.repMiss (P := mossOps u) (mn := 0) (right_op_end hc))) rfl (.itemsEnd rfl)
  exact YieldsL.text (cb := some 0) h

/-- With the first operand: an operator and all that follows. -/
theorem right_next (s : Bytes) (v : Ast) (o : AddOp) (s' : Bytes) (w : Ast) (hs : s'.length < s.length)
    (h : ∀ x, YieldsL (mossOps u) N (rightLines reG) (some ("Expr", s, x)) (d + 1) (.rule "Expr" (some 0) (.text rightE)) s' (.ok (some (w, [])))) :
    YieldsL (mossOps u) N (rightLines reG) (some ("Expr", s, some (v, o.char :: s'))) (d + 2) (.body (some 0) (.text rightE)) s
      (.ok (some (binaryexpr v [o.char] w, []))) := by
  have hc : Outside (some ("Expr", s, some (v, o.char :: s'))) := by intro _ _ _ h; cases h; rfl
  have h : YieldsL (mossOps u) N (rightLines reG) (some ("Expr", s, some (v, o.char :: s'))) (d + 1) (.part false rightE.vp) s
      (.ok (some (.arr [v, .arr [.arr [.str [o.char], w]]], []))) := by
    rw [rightE_vp]
    refine YieldsL.bare (.inr rfl) (.alt (.altsDone (YieldsL.bare (.inr rfl) (.seq ?_)) (by simp)))
    rw [right_form]
    refine .itemsPut (YieldsL.bare (.inr rfl) (.again rfl)) rfl ?_
    refine .itemsPut (YieldsL.bare (.inr rfl) (.rep (x := .arr [.str [o.char], w]) (s' := []) (YieldsL.bare (.inr rfl) (.seq ?_)) ?_)) rfl (.itemsEnd rfl)
    · rw [rightSeq_form]
      refine .itemsPut (part_addOp (by rw [right_mentions]; decide) (by rw [right_rules]; simp) (hc.ne (by decide)) true o _) rfl ?_
      refine .itemsPut (YieldsL.bare (.inr rfl) (.name (cb := some 0) (b := .text rightE) ?_ (by rw [right_mentions]; decide) (by rw [right_rules]; simp) (h _))) rfl (.itemsEnd rfl)
      intro x hx
      cases hx
      omega
    · exact .noMore (P := mossOps u) (mn := 0) (vs := [_]) room_none .sepNone (right_op_end hc)
  exact YieldsL.text (cb := some 0) h

theorem right_rule (hG : FindsGlyph reG) : ∀ (l : List (AddOp × UInt8)) (a : UInt8), IsGlyph a → (∀ k ∈ l, IsGlyph k.2) → ∀ (c : Around Ast) (d : Nat),
    YieldsL (mossOps u) N (rightLines reG) c (d + l.length + 2) (.rule "Expr" (some 0) (.text rightE)) (a :: rightText l) (.ok (some (rightMoss a l, [])))
  | [], a, ha, _, c, d => by
    refine YieldsL.grown (n := 1) (fun i => if i = 0 then none else some (Ast.str [a], [])) (by decide) (by rw [right_mentions]; decide) rfl ?_ ?_ ?_
    · intro i hi
      have : i = 0 := by omega
      subst this
      simp [Exceeds]
    · simp [Exceeds]
    · intro i hi
      have : i = 0 ∨ i = 1 := by omega
      rcases this with rfl | rfl
      · exact right_first hG ha []
      · exact right_last _ _
  | (o, b) :: l, a, ha, hl, c, d => by
    have ih := fun c => right_rule hG l b (hl _ (List.mem_cons_self ..)) (fun k hk => hl k (List.mem_cons_of_mem _ hk)) c d
    refine YieldsL.grown (n := 2) (fun i => if i = 0 then none else if i = 1 then some (Ast.str [a], o.char :: b :: rightText l) else some (rightMoss a ((o, b) :: l), []))
      (by decide) (by rw [right_mentions]; decide) rfl ?_ ?_ ?_
    · intro i hi
      have : i = 0 ∨ i = 1 := by omega
      rcases this with rfl | rfl
      · simp [Exceeds]
      · simp [Exceeds]
    · simp [Exceeds]
    · intro i hi
      have : i = 0 ∨ i = 1 ∨ i = 2 := by omega
      rcases this with rfl | rfl | rfl
      · exact right_first hG ha _
      · exact right_next (d := d + l.length + 1) _ _ _ _ _ (by simp [rightText]) fun x => ih _
      · exact right_last _ _
end

end Joeson
