import Verif.Spec.ChainOnly
import Verif.Props.Precedence
/-! # What the left recursive grammars of C57 and C62 match, on any text -/

namespace Joeson
open RuleText Sample Arith Calc

variable {V : Type} {P : PureOps V} {N : Nat} {L : List GLine} {c : Around V} {d : Nat}

/-! ## `E '-' N | N` -/

/-- `N` where there is no digit. -/
theorem digit_misses {re : Regex} (hre : FindsDigit re) (hc : ∀ x s, c ≠ some ("N", s, x)) (h : Bool)
    {s : Bytes} (hs : ∀ a s', s = a :: s' → ¬ (0x30 ≤ a ∧ a ≤ 0x39)) :
    YieldsL P N (minusLines re) c (d + 1) (.part h (.name "" "N" false)) s (.ok none) := by
  refine YieldsL.bare (.inr rfl) (.name (cb := none) (b := .text (.single (.one [] none (.prim (digitCls re))) [])) (fun x => hc x _) (minus_mentions re).2 ?_ ?_)
  · simp [minusLines, rulesOf, GLine.rules, Body.rules]
  · refine YieldsL.steady (by decide) (minus_mentions re).2 fun x => ?_
    have h1 : YieldsL P N (minusLines re) (some ("N", s, x)) d (.part false (.re "" re)) s (.ok none) := by
      refine YieldsL.bare (.inr rfl) (.reMiss fun n hn => ?_)
      obtain ⟨b, s', rfl, hb⟩ := hre.2 s n hn
      exact hs _ _ rfl hb
    exact YieldsL.text (cb := none) (e := .single (.one [] none (.prim (digitCls re))) []) h1

/-- What `E` gives the `i`-th time. -/
def minusGrownTo (P : PureOps V) (a : UInt8) (l t : Bytes) : Nat → Option (V × Bytes)
  | 0 => none
  | i + 1 => if i ≤ l.length then some (minusValue P a (l.take i), minuses (l.drop i) ++ t) else some (P.str [a], minuses l ++ t)

/-- The body of `E`. -/
def minusE : Expr := .choice [] (.cons [] none (.prim (.ref (asc "E"))) (.cons [0x20] none (.prim (litE "-")) (.one [0x20] none (.prim (.ref (asc "N"))))))
          [0x20] (.one (.one [0x20] none (.prim (.ref (asc "N"))))) [] []

theorem minusE_vp : minusE.vp = .alt "" [.seq "" minusSeq, .name "" "N" false] := by kernel_rfl

theorem minus_body {re : Regex} {c : Around V} {s : Bytes} {r : Option (V × Bytes)}
    (h : YieldsL P N (minusLines re) c (d + 1) (.part false (.alt "" [.seq "" minusSeq, .name "" "N" false])) s (.ok r)) :
    YieldsL P N (minusLines re) c (d + 2) (.body none (.text minusE)) s (.ok r) := by
  have h2 := YieldsL.text (cb := none) (e := minusE) (d := d + 1) (minusE_vp ▸ h)
  match r with
  | none => exact h2
  | some (v, s) => exact h2

theorem minuses_length : ∀ l : Bytes, (minuses l).length = 2 * l.length
  | [] => rfl
  | c :: l => by
    have ih := minuses_length l
    simp only [minuses, List.flatMap_cons, List.length_append, List.length_cons, List.length_nil] at ih ⊢
    omega

/-- On a text that does not begin with a digit. -/
theorem minus_none {re : Regex} (hre : FindsDigit re) {s : Bytes} (hs : ∀ a s', s = a :: s' → ¬ (0x30 ≤ a ∧ a ≤ 0x39)) :
    YieldsL P N (minusLines re) none 2 (.lines (minusLines re)) s (.ok none) := by
  refine .altMiss (.grown (n := 0) (fun _ => none) (by decide) (minus_mentions re).1 rfl (by simp) (by simp [Exceeds]) fun i _ => ?_) (.incl .linesEnd)
  refine minus_body (d := 0) (YieldsL.bare (.inr rfl) (.alt (.altsMiss (YieldsL.bare (.inr rfl) (.seq (.itemsMiss (YieldsL.bare (.inl rfl) (.again rfl))))) (.altsMiss ?_ .altsEnd))))
  exact digit_misses hre (by simp) false hs

/-- On a chain that ends somewhere. -/
theorem minus_yields_to {re : Regex} (hre : FindsDigit re) {a : UInt8} (ha : 0x30 ≤ a ∧ a ≤ 0x39) {l t : Bytes}
    (hl : ∀ c ∈ l, 0x30 ≤ c ∧ c ≤ 0x39) (ht : NoMinus t) :
    YieldsL P N (minusLines re) none 2 (.lines (minusLines re)) (a :: (minuses l ++ t)) (.ok (some (minusValue P a l, t))) := by
  have hend : minusGrownTo P a l t (l.length + 1) = some (minusValue P a l, t) := by
    simp [minusGrownTo, minuses]
  rw [← hend]
  refine .altDone (.grown (minusGrownTo P a l t) (by decide) (minus_mentions re).1 rfl ?_ ?_ ?_) (by simp [hend])
  · intro i hi
    match i with
    | 0 => simp [minusGrownTo, Exceeds]
    | i + 1 =>
      rw [minusGrownTo, minusGrownTo, if_pos (by omega), if_pos (by omega)]
      simp only [Exceeds, List.length_append, minuses_length, List.length_drop]
      omega
  · rw [hend, minusGrownTo, if_neg (by omega)]
    simp [Exceeds]
  · intro i hi
    have hN : ∀ (y : Option (V × Bytes)) (s : Bytes), some ("E", a :: (minuses l ++ t), minusGrownTo P a l t i) ≠ some ("N", s, y) := by
      intro y s h
      simp at h
    have hfirst : YieldsL P N (minusLines re) (some ("E", a :: (minuses l ++ t), minusGrownTo P a l t i)) 1 (.part true (.name "" "E" false)) (a :: (minuses l ++ t))
        (.ok (minusGrownTo P a l t i)) := YieldsL.bare (.inl rfl) (.again rfl)
    have hform : formOf minusSeq = .array := by kernel_rfl
    have hlast : YieldsL P N (minusLines re) (some ("E", a :: (minuses l ++ t), minusGrownTo P a l t i)) 1 (.part false (.name "" "N" false)) (a :: (minuses l ++ t))
        (.ok (some (P.str [a], minuses l ++ t))) := digit_yields hre hN false ha _
    refine minus_body (d := 0) (YieldsL.bare (.inr rfl) (.alt ?_))
    have hmiss : YieldsL P N (minusLines re) (some ("E", a :: (minuses l ++ t), minusGrownTo P a l t i)) 1 (.part false (.seq "" minusSeq)) (a :: (minuses l ++ t)) (.ok none) →
        YieldsL P N (minusLines re) (some ("E", a :: (minuses l ++ t), minusGrownTo P a l t i)) 1 (.alts [.seq "" minusSeq, .name "" "N" false]) (a :: (minuses l ++ t))
          (.ok (some (P.str [a], minuses l ++ t))) := fun h => .altsMiss h (.altsDone hlast (by simp))
    generalize some ("E", a :: (minuses l ++ t), minusGrownTo P a l t i) = c0 at hN hfirst hlast hmiss ⊢
    cases i with
    | zero =>
      exact hmiss (YieldsL.bare (.inr rfl) (.seq (.itemsMiss hfirst)))
    | succ i =>
      have hi' : i ≤ l.length := by omega
      by_cases he : i < l.length
      · have hd : l.drop i = l[i] :: l.drop (i + 1) := List.drop_eq_getElem_cons he
        have hx : minusGrownTo P a l t (i + 1) = some (minusValue P a (l.take i), asc "-" ++ l[i] :: (minuses (l.drop (i + 1)) ++ t)) := by
          rw [minusGrownTo, if_pos hi', hd]
          rfl
        have hy : minusGrownTo P a l t (i + 1 + 1) = some (P.arr [minusValue P a (l.take i), P.str [l[i]]], minuses (l.drop (i + 1)) ++ t) := by
          rw [minusGrownTo, if_pos (by omega)]
          unfold minusValue
          rw [List.take_succ_eq_append_getElem he, List.foldl_append]
          rfl
        rw [hy]
        rw [hx] at hfirst
        refine .altsDone (YieldsL.bare (.inr rfl) (.seq ?_)) (by simp)
        rw [hform]
        refine .itemsPut hfirst rfl (.itemsPut (YieldsL.bare (.inl rfl) .lit) rfl (.itemsPut (digit_yields hre hN true ?_ _) rfl (.itemsEnd rfl)))
        exact hl _ (List.getElem_mem he)
      · have he' : i = l.length := by omega
        have hx : minusGrownTo P a l t (i + 1) = some (minusValue P a l, t) := by rw [he', hend]
        have hy : minusGrownTo P a l t (i + 1 + 1) = some (P.str [a], minuses l ++ t) := by rw [minusGrownTo, if_neg (by omega)]
        rw [hy]
        rw [hx] at hfirst
        refine hmiss (YieldsL.bare (.inr rfl) (.seq ?_))
        rw [hform]
        refine .itemsPut hfirst rfl ?_
        by_cases hm : ∃ t', t = asc "-" ++ t'
        · obtain ⟨t', rfl⟩ := hm
          refine .itemsPut (YieldsL.bare (.inl rfl) .lit) rfl (.itemsMiss (digit_misses hre hN true fun b s' hb => ?_))
          subst hb
          exact ht b s' rfl
        · exact .itemsMiss (YieldsL.bare (.inl rfl) (.litMiss fun s' h => hm ⟨s', h⟩))

/-- Any text. -/
theorem minus_split : ∀ (n : Nat) (s : Bytes), s.length ≤ n → ∃ l t, (∀ c ∈ l, 0x30 ≤ c ∧ c ≤ 0x39) ∧ s = minuses l ++ t ∧ NoMinus t
  | 0, s, h => by
    have : s = [] := List.length_eq_zero_iff.mp (by omega)
    subst this
    exact ⟨[], [], by simp, rfl, fun _ _ h => by cases h⟩
  | n + 1, s, h => by
    by_cases hs : NoMinus s
    · exact ⟨[], s, by simp, rfl, hs⟩
    · simp only [NoMinus, not_forall, not_not] at hs
      obtain ⟨c, s', rfl, hc⟩ := hs
      obtain ⟨l, t, h1, rfl, h3⟩ := minus_split n s' (by simp at h; omega)
      refine ⟨c :: l, t, ?_, rfl, h3⟩
      intro x hx
      rcases List.mem_cons.mp hx with rfl | hx
      · exact hc
      · exact h1 x hx

/-! ## `Expr ( _ AddOp _ Glyph )* | Glyph` -/

theorem part_glyph_miss {reG : Regex} (hG : FindsGlyph reG) (hm : "Glyph" ∈ mentionsIn L) (hr : ("Glyph", none, .text (glyphE reG)) ∈ rulesOf L)
    (hc : ∀ s x, c ≠ some ("Glyph", s, x)) (h : Bool) {s : Bytes} (hs : NoGlyph s) :
    YieldsL P N L c (d + 1) (.part h (.name "" "Glyph" false)) s (.ok none) := by
  refine YieldsL.bare (.inr rfl) (.name (cb := none) (b := .text (glyphE reG)) (fun x => hc _ x) hm hr ?_)
  refine YieldsL.steady (by decide) hm fun x => ?_
  have h1 : YieldsL P N L (some ("Glyph", s, x)) d (.part false (.re "" reG)) s (.ok none) := by
    refine YieldsL.bare (.inr rfl) (.reMiss fun n hn => ?_)
    obtain ⟨b, s', rfl, hb⟩ := hG.2 s n hn
    exact hs _ _ rfl hb
  exact YieldsL.text (cb := none) (e := glyphE reG) h1

theorem part_addOp_miss (hm : "AddOp" ∈ mentionsIn L) (hr : ("AddOp", none, .text addOpE) ∈ rulesOf L)
    (hc : ∀ s x, c ≠ some ("AddOp", s, x)) (h : Bool) {s : Bytes} (hs : ∀ (o : AddOp) s', s ≠ o.char :: s') :
    YieldsL P N L c (d + 1) (.part h (.name "" "AddOp" false)) s (.ok none) := by
  refine YieldsL.bare (.inr rfl) (.name (cb := none) (b := .text addOpE) (fun x => hc _ x) hm hr ?_)
  refine YieldsL.steady (by decide) hm fun x => ?_
  have h1 : YieldsL P N L (some ("AddOp", s, x)) d (.part false addOpE.vp) s (.ok none) := by
    rw [addOpE_vp]
    refine YieldsL.bare (.inr rfl) (.alt ?_)
    exact .altsMiss (YieldsL.bare (.inr rfl) (.litMiss fun s' h => hs .plus s' h)) (.altsMiss (YieldsL.bare (.inr rfl) (.litMiss fun s' h => hs .minus s' h)) .altsEnd)
  exact YieldsL.text (cb := none) (e := addOpE) h1

theorem blank_split : ∀ s : Bytes, ∃ w t, (∀ b ∈ w, IsBlank b) ∧ s = w ++ t ∧ NoBlank t
  | [] => ⟨[], [], by simp, rfl, nil_noBlank⟩
  | c :: s => by
    by_cases hc : IsBlank c
    · obtain ⟨w, t, h1, rfl, h3⟩ := blank_split s
      refine ⟨c :: w, t, ?_, rfl, h3⟩
      intro x hx
      rcases List.mem_cons.mp hx with rfl | hx
      · exact hc
      · exact h1 x hx
    · exact ⟨[], c :: s, by simp, rfl, fun x s' h => by cases h; exact hc⟩

variable {reG reB : Regex} {u : UserString}

theorem part_link_miss (hL : HasParts reG reB L) (hc : Outside c) {s : Bytes} (hs : NoLink s) :
    YieldsL P N L c (d + 1) (.part false (.seq "" linkSeq)) s (.ok none) := by
  refine YieldsL.bare (.inr rfl) (.seq ?_)
  rw [linkSeq_form]
  obtain ⟨w, s1, hw, rfl, h1⟩ := blank_split s
  refine .itemsPut (part_blank hL.blank hL.mB hL.rB (hc.ne (by decide)) true hw h1) rfl ?_
  by_cases ho : ∃ (o : AddOp) (s' : Bytes), s1 = o.char :: s'
  · obtain ⟨o, s', rfl⟩ := ho
    refine .itemsPut (part_addOp hL.mA hL.rA (hc.ne (by decide)) true _ _) rfl ?_
    obtain ⟨w', s2, hw', rfl, h2⟩ := blank_split s'
    refine .itemsPut (part_blank hL.blank hL.mB hL.rB (hc.ne (by decide)) true hw' h2) rfl ?_
    refine .itemsMiss (part_glyph_miss hL.glyph hL.mG hL.rG (hc.ne (by decide)) true fun b s3 hb hg => ?_)
    subst hb
    exact hs ⟨w, o, w', b⟩ ⟨hw, hw', hg⟩ ⟨s3, by simp [Link.text]⟩
  · exact .itemsMiss (part_addOp_miss hL.mA hL.rA (hc.ne (by decide)) true fun o s' h => ho ⟨o, s', h⟩)

theorem more_link_to (hL : HasParts reG reB L) (hc : Outside c) {t : Bytes} (ht : NoLink t) : ∀ (l : List Link) (vs : List V), (∀ k ∈ l, k.Ok) →
    YieldsL P N L c (d + 1) (.more (.seq "" linkSeq) none 0 none vs) (chain l ++ t) (.ok (some (P.arr (vs ++ l.map (Link.value P)), t)))
  | [], vs, _ => by
    simpa [chain, vstop] using YieldsL.noMore (P := P) (N := N) (L := L) (c := c) (d := d + 1) (mn := 0) (vs := vs) room_none .sepNone (part_link_miss hL hc ht)
  | k :: l, vs, hk => by
    have h := more_link_to hL hc ht l (vs ++ [k.value P]) fun x hx => hk x (List.mem_cons_of_mem _ hx)
    simpa [chain] using YieldsL.more (P := P) room_none .sepNone (part_link hL hc (hk k (List.mem_cons_self ..)) (chain l ++ t)) h

theorem rep_link_to (hL : HasParts reG reB L) (hc : Outside c) (h : Bool) (l : List Link) (hl : ∀ k ∈ l, k.Ok) {t : Bytes} (ht : NoLink t) :
    YieldsL P N L c (d + 1) (.part h (.rep "" (.seq "" linkSeq) none 0 none)) (chain l ++ t) (.ok (some (P.arr (l.map (Link.value P)), t))) := by
  refine YieldsL.bare (.inr rfl) ?_
  match l, hl with
  | [], _ => exact .repMiss (P := P) (mn := 0) (part_link_miss hL hc ht)
  | k :: l, hl =>
    have := part_link (P := P) (N := N) (d := d) hL hc (hl k (List.mem_cons_self ..)) (chain l ++ t)
    rw [← List.append_assoc] at this
    exact .rep this (more_link_to hL hc ht l [_] fun x hx => hl x (List.mem_cons_of_mem _ hx))

/-- With a value of last time: the operations that follow. -/
theorem prec_next_to (hL : HasParts reG reB L) (s : Bytes) (v : Ast) (l : List Link) (hl : ∀ k ∈ l, k.Ok) {t : Bytes} (ht : NoLink t) :
    YieldsL (mossOps u) N L (some ("Expr", s, some (v, chain l ++ t))) (d + 2) (.body (some 0) (.text precE)) s (.ok (some (leftMoss v l, t))) := by
  have hc : Outside (some ("Expr", s, some (v, chain l ++ t))) := by intro _ _ _ h; cases h; rfl
  have h : YieldsL (mossOps u) N L (some ("Expr", s, some (v, chain l ++ t))) (d + 1) (.part false precE.vp) s
      (.ok (some (.arr [v, .arr (l.map (Link.value (mossOps u)))], t))) := by
    rw [precE_vp]
    refine YieldsL.bare (.inr rfl) (.alt (.altsDone (YieldsL.bare (.inr rfl) (.seq ?_)) (by simp)))
    rw [precSeq_form]
    refine .itemsPut (YieldsL.bare (.inr rfl) (.again rfl)) rfl ?_
    exact .itemsPut (rep_link_to hL hc true l hl ht) rfl (.itemsEnd rfl)
  have := YieldsL.text (cb := some 0) h
  have hcall : called (mossOps u) N (some 0) (.ok (some (.arr [v, .arr (l.map (Link.value (mossOps u)))], t))) = .ok (some (leftMoss v l, t)) := by
    have : (mossOps u).cb 0 (.arr [v, .arr (l.map (Link.value (mossOps u)))]) (N - t.length) = .ok (some (leftMoss v l)) := by
      show (growMoss u _).map some = _
      rw [growMoss_links]
      rfl
    simp only [called, this]
  rwa [hcall] at this

theorem prec_rule_to {c : Around Ast} (hL : HasParts reG reB L) (hm : "Expr" ∈ mentionsIn L) {a : UInt8} (ha : IsGlyph a) (l : List Link) (hl : ∀ k ∈ l, k.Ok)
    {t : Bytes} (ht : NoLink t) :
    YieldsL (mossOps u) N L c (d + 2) (.rule "Expr" (some 0) (.text precE)) (a :: (chain l ++ t)) (.ok (some (leftMoss (.str [a]) l, t))) := by
  by_cases he : l = []
  · subst he
    refine YieldsL.grown (n := 1) (fun i => if i = 0 then none else some (Ast.str [a], t)) (by decide) hm rfl ?_ ?_ ?_
    · intro i hi
      have : i = 0 := by omega
      subst this
      simp [Exceeds]
    · simp [Exceeds]
    · intro i hi
      have : i = 0 ∨ i = 1 := by omega
      rcases this with rfl | rfl
      · exact prec_first hL ha t
      · exact prec_next_to hL _ (.str [a]) [] (by simp) ht
  · refine YieldsL.grown (n := 2) (fun i => if i = 0 then none else if i = 1 then some (Ast.str [a], chain l ++ t) else some (leftMoss (.str [a]) l, t)) (by decide) hm rfl ?_ ?_ ?_
    · intro i hi
      have : i = 0 ∨ i = 1 := by omega
      rcases this with rfl | rfl
      · simp [Exceeds]
      · simpa [Exceeds] using chain_pos he
    · simp [Exceeds]
    · intro i hi
      have : i = 0 ∨ i = 1 ∨ i = 2 := by omega
      rcases this with rfl | rfl | rfl
      · exact prec_first hL ha _
      · exact prec_next_to hL _ (.str [a]) l hl ht
      · exact prec_next_to hL _ _ [] (by simp) ht

theorem prec_rule_none {c : Around Ast} (hL : HasParts reG reB L) (hm : "Expr" ∈ mentionsIn L) {s : Bytes} (hs : NoGlyph s) :
    YieldsL (mossOps u) N L c (d + 2) (.rule "Expr" (some 0) (.text precE)) s (.ok none) := by
  refine YieldsL.grown (n := 0) (fun _ => none) (by decide) hm rfl (by simp) (by simp [Exceeds]) fun i _ => ?_
  have h : YieldsL (mossOps u) N L (some ("Expr", s, none)) (d + 1) (.part false precE.vp) s (.ok none) := by
    rw [precE_vp]
    refine YieldsL.bare (.inr rfl) (.alt (.altsMiss (YieldsL.bare (.inr rfl) (.seq (.itemsMiss (YieldsL.bare (.inr rfl) (.again rfl))))) (.altsMiss ?_ .altsEnd)))
    exact part_glyph_miss hL.glyph hL.mG hL.rG (by simp) false hs
  exact YieldsL.text (cb := some 0) h

theorem link_split : ∀ (n : Nat) (s : Bytes), s.length ≤ n → ∃ l t, (∀ k ∈ l, Link.Ok k) ∧ s = chain l ++ t ∧ NoLink t
  | 0, s, h => by
    have : s = [] := List.length_eq_zero_iff.mp (by omega)
    subst this
    refine ⟨[], [], by simp, rfl, fun k _ hk => ?_⟩
    obtain ⟨r, hr⟩ := hk
    simp [Link.text] at hr
  | n + 1, s, h => by
    by_cases hs : NoLink s
    · exact ⟨[], s, by simp, rfl, hs⟩
    · simp only [NoLink, not_forall, not_not] at hs
      obtain ⟨k, hk, s', rfl⟩ := hs
      obtain ⟨l, t, h1, rfl, h3⟩ := link_split n s' (by simp [Link.text] at h; omega)
      refine ⟨k :: l, t, ?_, by simp [chain], h3⟩
      intro x hx
      rcases List.mem_cons.mp hx with rfl | hx
      · exact hk
      · exact h1 x hx

/-! ## `Expr ( AddOp Expr )* | Glyph` -/

theorem right_rule_none {c : Around Ast} (hG : FindsGlyph reG) {s : Bytes} (hs : NoGlyph s) :
    YieldsL (mossOps u) N (rightLines reG) c (d + 2) (.rule "Expr" (some 0) (.text rightE)) s (.ok none) := by
  refine YieldsL.grown (n := 0) (fun _ => none) (by decide) (by rw [right_mentions]; decide) rfl (by simp) (by simp [Exceeds]) fun i _ => ?_
  have h : YieldsL (mossOps u) N (rightLines reG) (some ("Expr", s, none)) (d + 1) (.part false rightE.vp) s (.ok none) := by
    rw [rightE_vp]
    refine YieldsL.bare (.inr rfl) (.alt (.altsMiss (YieldsL.bare (.inr rfl) (.seq (.itemsMiss (YieldsL.bare (.inr rfl) (.again rfl))))) (.altsMiss ?_ .altsEnd)))
    exact part_glyph_miss hG (by rw [right_mentions]; decide) (by rw [right_rules]; simp) (by simp) false hs
  exact YieldsL.text (cb := some 0) h

/-- `AddOp Expr` where the chain has ended, inside of a rule that begins elsewhere. -/
theorem right_op_miss {c : Around Ast} (hG : FindsGlyph reG) (hc : Outside c) {t : Bytes} (hat : ∀ nm s x, c = some (nm, s, x) → t.length < s.length + 1) (ht : NoOp t) :
    YieldsL (mossOps u) N (rightLines reG) c (d + 3) (.part false (.seq "" rightSeq)) t (.ok none) := by
  refine YieldsL.bare (.inr rfl) (.seq ?_)
  rw [rightSeq_form]
  by_cases ho : ∃ (o : AddOp) (s' : Bytes), t = o.char :: s'
  · obtain ⟨o, s', rfl⟩ := ho
    refine .itemsPut (part_addOp (by rw [right_mentions]; decide) (by rw [right_rules]; simp) (hc.ne (by decide)) true o _) rfl ?_
    refine .itemsMiss (YieldsL.bare (.inr rfl) (.name (cb := some 0) (b := .text rightE) ?_ (by rw [right_mentions]; decide) (by rw [right_rules]; simp)
      (right_rule_none hG fun b s3 hb => ?_)))
    · intro x hx
      have := hat _ _ _ hx
      simp at this
    · subst hb
      exact ht o b s3 rfl
  · exact .itemsMiss (part_addOp_miss (by rw [right_mentions]; decide) (by rw [right_rules]; simp) (hc.ne (by decide)) true fun o s' h => ho ⟨o, s', h⟩)

/-- Where the chain has ended: nothing more. -/
theorem right_last_to (hG : FindsGlyph reG) (s : Bytes) (v : Ast) {t : Bytes} (hs : t.length < s.length) (ht : NoOp t) :
    YieldsL (mossOps u) N (rightLines reG) (some ("Expr", s, some (v, t))) (d + 4) (.body (some 0) (.text rightE)) s (.ok (some (v, t))) := by
  have hc : Outside (some ("Expr", s, some (v, t))) := by intro _ _ _ h; cases h; rfl
  have h : YieldsL (mossOps u) N (rightLines reG) (some ("Expr", s, some (v, t))) (d + 3) (.part false rightE.vp) s (.ok (some (.arr [v, .arr []], t))) := by
    rw [rightE_vp]
    refine YieldsL.bare (.inr rfl) (.alt (.altsDone (YieldsL.bare (.inr rfl) (.seq ?_)) (by simp)))
    rw [right_form]
    refine .itemsPut (YieldsL.bare (.inr rfl) (.again rfl)) rfl ?_
    refine .itemsPut (YieldsL.bare (.inr rfl) (.repMiss (P := mossOps u) (mn := 0) (right_op_miss hG hc ?_ ht))) rfl (.itemsEnd rfl)
    intro _ _ _ h
    cases h
    omega
  exact YieldsL.text (cb := some 0) h

/-- With the first operand: an operator and all that follows. -/
theorem right_next_to (hG : FindsGlyph reG) (s : Bytes) (v : Ast) (o : AddOp) (s' : Bytes) (w : Ast) (hs : s'.length < s.length) {t : Bytes} (hs' : t.length < s.length) (ht : NoOp t)
    (h : ∀ x, YieldsL (mossOps u) N (rightLines reG) (some ("Expr", s, x)) (d + 3) (.rule "Expr" (some 0) (.text rightE)) s' (.ok (some (w, t)))) :
    YieldsL (mossOps u) N (rightLines reG) (some ("Expr", s, some (v, o.char :: s'))) (d + 4) (.body (some 0) (.text rightE)) s
      (.ok (some (binaryexpr v [o.char] w, t))) := by
  have hc : Outside (some ("Expr", s, some (v, o.char :: s'))) := by intro _ _ _ h; cases h; rfl
  have h : YieldsL (mossOps u) N (rightLines reG) (some ("Expr", s, some (v, o.char :: s'))) (d + 3) (.part false rightE.vp) s
      (.ok (some (.arr [v, .arr [.arr [.str [o.char], w]]], t))) := by
    rw [rightE_vp]
    refine YieldsL.bare (.inr rfl) (.alt (.altsDone (YieldsL.bare (.inr rfl) (.seq ?_)) (by simp)))
    rw [right_form]
    refine .itemsPut (YieldsL.bare (.inr rfl) (.again rfl)) rfl ?_
    refine .itemsPut (YieldsL.bare (.inr rfl) (.rep (x := .arr [.str [o.char], w]) (s' := t) (YieldsL.bare (.inr rfl) (.seq ?_)) ?_)) rfl (.itemsEnd rfl)
    · rw [rightSeq_form]
      refine .itemsPut (part_addOp (by rw [right_mentions]; decide) (by rw [right_rules]; simp) (hc.ne (by decide)) true o _) rfl ?_
      refine .itemsPut (YieldsL.bare (.inr rfl) (.name (cb := some 0) (b := .text rightE) ?_ (by rw [right_mentions]; decide) (by rw [right_rules]; simp) (h _))) rfl (.itemsEnd rfl)
      intro x hx
      cases hx
      omega
    · refine .noMore (P := mossOps u) (mn := 0) (vs := [_]) room_none .sepNone (right_op_miss hG hc ?_ ht)
      intro _ _ _ h
      cases h
      omega
  exact YieldsL.text (cb := some 0) h

theorem right_rule_to (hG : FindsGlyph reG) {t : Bytes} (ht : NoOp t) : ∀ (l : List (AddOp × UInt8)) (a : UInt8), IsGlyph a → (∀ k ∈ l, IsGlyph k.2) → ∀ (c : Around Ast) (d : Nat),
    YieldsL (mossOps u) N (rightLines reG) c (d + l.length + 4) (.rule "Expr" (some 0) (.text rightE)) (a :: (rightText l ++ t)) (.ok (some (rightMoss a l, t)))
  | [], a, ha, _, c, d => by
    refine YieldsL.grown (n := 1) (fun i => if i = 0 then none else some (Ast.str [a], t)) (by decide) (by rw [right_mentions]; decide) rfl ?_ ?_ ?_
    · intro i hi
      have : i = 0 := by omega
      subst this
      simp [Exceeds]
    · simp [Exceeds]
    · intro i hi
      have : i = 0 ∨ i = 1 := by omega
      rcases this with rfl | rfl
      · exact right_first hG ha t
      · exact right_last_to hG _ _ (by simp [rightText]) ht
  | (o, b) :: l, a, ha, hl, c, d => by
    have ih := fun c => right_rule_to hG ht l b (hl _ (List.mem_cons_self ..)) (fun k hk => hl k (List.mem_cons_of_mem _ hk)) c d
    refine YieldsL.grown (n := 2) (fun i => if i = 0 then none else if i = 1 then some (Ast.str [a], o.char :: b :: (rightText l ++ t)) else some (rightMoss a ((o, b) :: l), t))
      (by decide) (by rw [right_mentions]; decide) rfl ?_ ?_ ?_
    · intro i hi
      have : i = 0 ∨ i = 1 := by omega
      rcases this with rfl | rfl
      · simp [Exceeds]
      · simp [Exceeds]
        omega
    · simp [Exceeds]
    · intro i hi
      have : i = 0 ∨ i = 1 ∨ i = 2 := by omega
      rcases this with rfl | rfl | rfl
      · exact right_first hG ha _
      · exact right_next_to (d := d + l.length + 1) hG _ _ _ _ _ (by simp [rightText]) (by simp; omega) ht fun x => ih _
      · exact right_last_to hG _ _ (by simp; omega) ht

theorem right_split : ∀ (n : Nat) (s : Bytes), s.length ≤ n → ∃ l t, (∀ k ∈ l, IsGlyph k.2) ∧ s = rightText l ++ t ∧ NoOp t
  | 0, s, h => by
    have : s = [] := List.length_eq_zero_iff.mp (by omega)
    subst this
    exact ⟨[], [], by simp, rfl, fun _ _ _ h => by cases h⟩
  | n + 1, s, h => by
    by_cases hs : NoOp s
    · exact ⟨[], s, by simp, rfl, hs⟩
    · simp only [NoOp, not_forall, not_not] at hs
      obtain ⟨o, c, s', rfl, hc⟩ := hs
      obtain ⟨l, t, h1, rfl, h3⟩ := right_split n s' (by simp at h; omega)
      refine ⟨(o, c) :: l, t, ?_, rfl, h3⟩
      intro x hx
      rcases List.mem_cons.mp hx with rfl | hx
      · exact hc
      · exact h1 x hx

end Joeson
