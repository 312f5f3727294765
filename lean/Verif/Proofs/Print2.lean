import Verif.Proofs.Print
/-!
# Printed parsers are rule texts: every parser
-/

namespace Joeson
open Spec RuleText

variable (rx : Bytes → Option Regex) (src : Regex → Bytes) (nm : Nat → String)

/-- The printed form is that of a tree of the level. -/
def Reads : Level → Nat → Node → Prop
  | .prim, k, n => n.info.label = "" ∧ ∃ p : Prim, p.Ok rx ∧ p.node = n ∧ p.nest ≤ k ∧
      Coloured (n.string src nm) p.text ∧ Clean p.text
  | .deco, k, n => n.info.label = "" ∧ ∃ d : Deco, d.Ok rx ∧ d.node = n ∧ d.nest ≤ k ∧
      Coloured (n.string src nm) d.text ∧ Clean d.text
  | .item, k, n => ∃ lab, ∃ d : Deco, LabOk lab ∧ d.Ok rx ∧ labelled lab d.node = n ∧ d.nest ≤ k ∧
      Coloured (n.string src nm) (labText lab ++ d.text) ∧ Clean (labText lab ++ d.text)

theorem blank_nil : Blank [] := fun _ h => (nomatch h)
theorem blank_space : Blank [0x20] := fun x h => .inl (List.mem_singleton.mp h)
theorem labOk_none : LabOk none := fun _ h => (nomatch h)

theorem body_setInfo (n : Node) (f : Info → Info) : (n.setInfo f).body src nm = n.body src nm := by
  cases n <;> (unfold Node.setInfo Node.body; rfl)

theorem string_unlabelled {n : Node} (h : n.info.label = "") : n.string src nm = n.body src nm := by
  unfold Node.string labelPrefix
  rw [if_neg (by rw [h]; simp)]
  rfl

theorem strings_eq (l : List Node) : Node.strings src nm l = l.map fun n => n.string src nm := by
  induction l with
  | nil => rfl
  | cons n l ih =>
    unfold Node.strings
    rw [ih]
    rfl

theorem Coloured.seg {c : String} (hc : c ∈ colourCodes) (s : String) : Coloured (paint c (asc s)) (asc s) :=
  Coloured.paint hc (.plain _)

theorem notRule {lv : Level} {k : Nat} {n : Node} (h : Printable lv k n) : ∀ id, n ≠ .rule id := by
  induction h with
  | item _ _ ih =>
    rename_i n lab _ _
    intro id e
    cases lab with
    | none => exact ih id e
    | some w =>
      cases n <;> cases e
      exact ih _ rfl
  | prim _ ih => exact ih
  | _ => intro id e; cases e

/-- The elements of a sequence. -/
theorem reads_units {k : Nat} : ∀ (l : List Node), l ≠ [] → (∀ n ∈ l, Reads rx src nm .item k n) → ∀ w, Blank w → Clean w →
    ∃ us : Units, us.Ok rx ∧ us.nodes = l ∧ us.nest ≤ k ∧ us.lead = w ∧ us.isOpen = false ∧
      (∃ t, us.text = w ++ t ∧ Coloured (joinWith (asc " ") (Node.strings src nm l)) t) ∧ Clean us.text
  | [], h, _, _, _, _ => absurd rfl h
  | [n], _, h, w, hw, cw => by
    obtain ⟨lab, d, h1, h2, h3, h4, h5, h6⟩ := h n (List.mem_cons_self ..)
    refine ⟨.one w lab d, ?_, ?_, ?_, rfl, rfl, ⟨labText lab ++ d.text, ?_, ?_⟩, ?_⟩
    · unfold Units.Ok; exact ⟨hw, h1, h2⟩
    · unfold Units.nodes; rw [h3]
    · unfold Units.nest; exact h4
    · unfold Units.text
      rw [List.append_assoc]
    · exact h5
    · unfold Units.text
      rw [List.append_assoc]
      exact cw.append h6
  | n :: m :: l, _, h, w, hw, cw => by
    obtain ⟨lab, d, h1, h2, h3, h4, h5, h6⟩ := h n (List.mem_cons_self ..)
    obtain ⟨us, g1, g2, g3, g4, g5, ⟨t, g6, g6'⟩, g7⟩ := reads_units (m :: l) (by simp)
      (fun x hx => h x (List.mem_cons_of_mem _ hx)) [0x20] blank_space (.ascii (by decide))
    refine ⟨.cons w lab d us, ?_, ?_, ?_, rfl, g5, ⟨labText lab ++ d.text ++ ([0x20] ++ t), ?_, ?_⟩, ?_⟩
    · unfold Units.Ok
      exact ⟨hw, h1, h2, g1, .inl (by rw [g4]; simp)⟩
    · unfold Units.nodes; rw [h3, g2]
    · unfold Units.nest; omega
    · unfold Units.text
      rw [g6]
      simp only [List.append_assoc]
    · have e : joinWith (asc " ") (Node.strings src nm (n :: m :: l)) =
          n.string src nm ++ ([0x20] ++ joinWith (asc " ") (Node.strings src nm (m :: l))) := by
        rw [strings_eq, strings_eq, List.map_cons, List.map_cons]
        show n.string src nm ++ asc " " ++ _ = _
        rw [List.append_assoc]
        rfl
      rw [e]
      exact h5.append ((Coloured.plain _).append g6')
    · unfold Units.text
      rw [List.append_assoc w]
      exact (cw.append h6).append g7

/-- The alternatives of a choice. -/
theorem reads_alts {k : Nat} : ∀ (l : List Node), l ≠ [] → (∀ n ∈ l, Reads rx src nm .item k n) →
    ∃ as : Alts, as.Ok rx ∧ as.nodes = l ∧ as.nest ≤ k ∧ as.isOpen = false ∧
      (∃ t, as.text = [0x20] ++ t ∧ Coloured (joinWith (blue (asc " | ")) (Node.strings src nm l)) t) ∧ Clean as.text
  | [], h, _ => absurd rfl h
  | [n], _, h => by
    obtain ⟨us, g1, g2, g3, g4, g5, g6, g7⟩ := reads_units rx src nm [n] (by simp) h [0x20] blank_space (.ascii (by decide))
    refine ⟨.one us, ?_, ?_, ?_, ?_, ?_, ?_⟩
    · unfold Alts.Ok; exact g1
    · unfold Alts.nodes; rw [g2]; rfl
    · unfold Alts.nest; exact g3
    · unfold Alts.isOpen; exact g5
    · unfold Alts.text; exact g6
    · unfold Alts.text; exact g7
  | n :: m :: l, _, h => by
    obtain ⟨us, g1, g2, g3, g4, g5, ⟨t, g6, g6'⟩, g7⟩ := reads_units rx src nm [n] (by simp)
      (fun x hx => h x (by rw [List.mem_singleton.mp hx]; exact List.mem_cons_self ..)) [0x20] blank_space (.ascii (by decide))
    obtain ⟨as, f1, f2, f3, f4, ⟨t', f5, f5'⟩, f6⟩ := reads_alts (m :: l) (by simp)
      (fun x hx => h x (List.mem_cons_of_mem _ hx))
    refine ⟨.cons us [0x20] as, ?_, ?_, ?_, ?_, ⟨t ++ asc " | " ++ t', ?_, ?_⟩, ?_⟩
    · unfold Alts.Ok; exact ⟨g1, g5, blank_space, f1⟩
    · unfold Alts.nodes; rw [g2, f2]; rfl
    · unfold Alts.nest; omega
    · unfold Alts.isOpen; exact f4
    · unfold Alts.text
      rw [g6, f5]
      simp only [List.append_assoc]
      rfl
    · exact (g6'.append (Coloured.seg (by decide) " | ")).append f5'
    · unfold Alts.text
      exact ((g7.append (.ascii (by decide))).append (.ascii (by decide))).append f6

theorem ruleIds_none {l : List Node} (hl : l ≠ []) (h : ∀ n ∈ l, ∀ id, n ≠ .rule id) : ruleIds l = none := by
  cases l with
  | nil => exact absurd rfl hl
  | cons n l =>
    have := h n (List.mem_cons_self ..)
    cases n
    case rule id => exact absurd rfl (this id)
    all_goals rfl

theorem label_labelled_some {n : Node} (hn : ∀ id, n ≠ .rule id) (w : Bytes) : (labelled (some w) n).info.label = nameOf w := by
  cases n
  case rule id => exact absurd rfl (hn id)
  all_goals rfl

theorem reads {lv : Level} {k : Nat} {n : Node} (h : Printable lv k n) : Reads rx src nm lv k n := by
  induction h with
  | @str k cs h =>
    refine ⟨rfl, .str (cs.map printPiece), ?_, ?_, Nat.zero_le _, ?_, ?_⟩
    · unfold Prim.Ok; exact pieces_ok h
    · unfold Prim.node; rw [pieces_chars]
    · rw [string_unlabelled src nm rfl]
      unfold mkStr Node.body Prim.text
      rw [escape_string h]
      exact Coloured.paint (by decide) (.plain _)
    · unfold Prim.text
      exact ((Clean.ascii (by decide)).append (clean_pieces h)).append (.ascii (by decide))
  | @ref k w h =>
    refine ⟨rfl, .ref w, ?_, ?_, Nat.zero_le _, ?_, ?_⟩
    · unfold Prim.Ok; exact h
    · unfold Prim.node; rfl
    · rw [string_unlabelled src nm rfl]
      unfold mkRef Node.body Prim.text
      rw [asc_nameOf]
      exact Coloured.paint (by decide) (.plain _)
    · unfold Prim.text
      exact clean_word h
  | @seq k l hl _ ih =>
    obtain ⟨us, g1, g2, g3, g4, g5, ⟨t, g6, g6'⟩, g7⟩ := reads_units rx src nm l (by rintro rfl; simp at hl) ih [] blank_nil .nil
    refine ⟨rfl, .group (.single us []), ?_, ?_, ?_, ?_, ?_⟩
    · unfold Prim.Ok Expr.Ok; exact ⟨g1, blank_nil, fun _ => rfl⟩
    · unfold Prim.node Expr.node
      rw [g2]
      match l, hl with
      | a :: b :: l, _ => rfl
    · unfold Prim.nest Expr.nest; omega
    · rw [string_unlabelled src nm rfl]
      unfold mkSeq Node.body Prim.text Expr.text
      rw [g6, List.append_nil, List.nil_append]
      exact ((Coloured.seg (by decide) "(").append g6').append (Coloured.seg (by decide) ")")
    · unfold Prim.text Expr.text
      exact ((Clean.ascii (by decide)).append (g7.append .nil)).append (.ascii (by decide))
  | @choice k l hl hp ih =>
    have hne : l ≠ [] := by rintro rfl; simp at hl
    have hr : ruleIds l = none := ruleIds_none hne fun n hn => notRule (hp n hn)
    match l, hl, ih, hr with
    | n :: m :: l, _, ih, hr =>
      obtain ⟨us, g1, g2, g3, g4, g5, ⟨t, g6, g6'⟩, g7⟩ := reads_units rx src nm [n] (by simp)
        (fun x hx => ih x (by rw [List.mem_singleton.mp hx]; exact List.mem_cons_self ..)) [] blank_nil .nil
      obtain ⟨as, f1, f2, f3, f4, ⟨t', f5, f5'⟩, f6⟩ := reads_alts rx src nm (m :: l) (by simp)
        (fun x hx => ih x (List.mem_cons_of_mem _ hx))
      refine ⟨rfl, .group (.choice [] us [0x20] as [] []), ?_, ?_, ?_, ?_, ?_⟩
      · unfold Prim.Ok Expr.Ok
        exact ⟨fun _ h => (nomatch h), g1, g5, blank_space, f1, fun _ h => (nomatch h), blank_nil, fun _ => ⟨rfl, rfl⟩⟩
      · unfold Prim.node Expr.node
        rw [g2, f2]
        rfl
      · unfold Prim.nest Expr.nest; omega
      · rw [string_unlabelled src nm rfl]
        unfold mkChoice Node.body
        rw [hr]
        have e : (Prim.group (.choice [] us [0x20] as [] [])).text = asc "(" ++ (t ++ asc " | " ++ t') ++ asc ")" := by
          unfold Prim.text Expr.text
          rw [g6, f5]
          show [0x28] ++ ([] ++ ([] ++ t) ++ [0x20] ++ [0x7C] ++ ([0x20] ++ t') ++ [] ++ []) ++ [0x29] = _
          simp only [List.append_assoc, List.nil_append, List.append_nil]
          rfl
        rw [e]
        exact ((Coloured.seg (by decide) "(").append ((g6'.append (Coloured.seg (by decide) " | ")).append f5')).append
          (Coloured.seg (by decide) ")")
      · unfold Prim.text Expr.text
        exact ((Clean.ascii (by decide)).append (((((((Clean.nil.append g7).append (.ascii (by decide))).append
          (.ascii (by decide))).append f6)).append .nil).append .nil)).append (.ascii (by decide))
  | @look k n hp ih =>
    obtain ⟨us, g1, g2, g3, g4, g5, ⟨t, g6, g6'⟩, g7⟩ := reads_units rx src nm [n] (by simp)
      (fun x hx => by rw [List.mem_singleton.mp hx]; exact ih) [] blank_nil .nil
    refine ⟨rfl, .group (.single (.open_ [] none (.single us [])) []), ?_, ?_, ?_, ?_, ?_⟩
    · unfold Prim.Ok Expr.Ok Units.Ok Expr.Ok
      exact ⟨⟨blank_nil, labOk_none, g1, blank_nil, fun _ => rfl⟩, blank_nil, fun _ => rfl⟩
    · unfold Prim.node Expr.node Units.nodes Expr.node
      rw [g2]
      rfl
    · unfold Prim.nest Expr.nest Units.nest Expr.nest; omega
    · rw [string_unlabelled src nm rfl]
      unfold mkLook Node.body
      have e : (Prim.group (.single (.open_ [] none (.single us [])) [])).text = asc "(?" ++ t ++ asc ")" := by
        unfold Prim.text Expr.text Units.text Expr.text
        rw [g6]
        show [0x28] ++ (([] ++ [] ++ [0x3F] ++ ([] ++ t ++ [])) ++ []) ++ [0x29] = _
        simp only [List.append_assoc, List.nil_append, List.append_nil]
        rfl
      rw [e]
      exact ((Coloured.seg (by decide) "(?").append g6').append (Coloured.seg (by decide) ")")
    · unfold Prim.text Expr.text Units.text Expr.text
      exact ((Clean.ascii (by decide)).append ((((Clean.nil.append Clean.nil).append (.ascii (by decide))).append
        (g7.append .nil)).append .nil)).append (.ascii (by decide))
  | @prim k n _ ih =>
    obtain ⟨h0, p, h1, h2, h3, h4, h5⟩ := ih
    refine ⟨h0, .prim p, ?_, ?_, ?_, ?_, ?_⟩
    · unfold Deco.Ok; exact h1
    · unfold Deco.node; exact h2
    · unfold Deco.nest; exact h3
    · unfold Deco.text; exact h4
    · unfold Deco.text; exact h5
  | @exist k n _ ih =>
    obtain ⟨h0, p, h1, h2, h3, h4, h5⟩ := ih
    refine ⟨rfl, .opt p, ?_, ?_, ?_, ?_, ?_⟩
    · unfold Deco.Ok; exact h1
    · unfold Deco.node; rw [h2]
    · unfold Deco.nest; exact h3
    · rw [string_unlabelled src nm rfl]
      unfold mkExist Node.body Deco.text
      exact h4.append (Coloured.seg (by decide) "?")
    · unfold Deco.text; exact h5.append (.ascii (by decide))
  | @not k n _ ih =>
    obtain ⟨h0, p, h1, h2, h3, h4, h5⟩ := ih
    refine ⟨rfl, .not p, ?_, ?_, ?_, ?_, ?_⟩
    · unfold Deco.Ok; exact h1
    · unfold Deco.node; rw [h2]
    · unfold Deco.nest; exact h3
    · rw [string_unlabelled src nm rfl]
      unfold mkNot Node.body Deco.text
      exact (Coloured.seg (by decide) "!").append h4
    · unfold Deco.text; exact Clean.append (.ascii (by decide)) h5
  | @pattern k n mn mx _ b1 b2 ih =>
    obtain ⟨h0, p, h1, h2, h3, h4, h5⟩ := ih
    obtain ⟨r, r1, r2, r3, r4, r5⟩ := print_bounds b1 b2
    refine ⟨rfl, .star p r, ?_, ?_, ?_, ?_, ?_⟩
    · unfold Deco.Ok; exact ⟨h1, r1⟩
    · unfold Deco.node; rw [h2, r2, r3]
    · unfold Deco.nest; exact h3
    · rw [string_unlabelled src nm rfl]
      unfold mkPattern Node.body Deco.text Node.joinString
      rw [List.append_nil]
      exact (h4.append (Coloured.seg (by decide) "*")).append r4
    · unfold Deco.text; exact (h5.append (.ascii (by decide))).append r5
  | @patternJoin k n j mn mx _ _ b1 b2 ih ih' =>
    obtain ⟨h0, p, h1, h2, h3, h4, h5⟩ := ih
    obtain ⟨g0, q, g1, g2, g3, g4, g5⟩ := ih'
    obtain ⟨r, r1, r2, r3, r4, r5⟩ := print_bounds b1 b2
    refine ⟨rfl, .starJoin p q r, ?_, ?_, ?_, ?_, ?_⟩
    · unfold Deco.Ok; exact ⟨h1, g1, r1⟩
    · unfold Deco.node; rw [h2, g2, r2, r3]
    · unfold Deco.nest; omega
    · rw [string_unlabelled src nm rfl]
      unfold mkPattern Node.body Deco.text Node.joinString
      exact ((h4.append (Coloured.seg (by decide) "*")).append g4).append r4
    · unfold Deco.text; exact ((h5.append (.ascii (by decide))).append g5).append r5
  | @item k n lab hp hl ih =>
    obtain ⟨h0, d, h1, h2, h3, h4, h5⟩ := ih
    refine ⟨lab, d, hl, h1, by rw [h2], h3, ?_, (clean_lab hl).append h5⟩
    cases lab with
    | none => exact h4
    | some w =>
      rw [string_unlabelled src nm h0] at h4
      unfold Node.string labelPrefix
      rw [label_labelled_some (notRule hp), if_pos (nameOf_ne (lab_ne hl)), asc_nameOf]
      refine Coloured.append (Coloured.paint (by decide) (.plain _)) ?_
      show Coloured ((n.setInfo _).body src nm) _
      rw [body_setInfo]
      exact h4

/-- The printed form is a rule text of the parser. -/
theorem print_text {k : Nat} {n : Node} (h : Printable .item k n) :
    ∃ e : Expr, e.Ok rx ∧ e.node = n ∧ e.nest ≤ k ∧ Coloured (n.string src nm) e.text ∧ NoEscapes e.text := by
  obtain ⟨us, g1, g2, g3, g4, g5, ⟨t, g6, g6'⟩, g7⟩ := reads_units rx src nm [n] (by simp)
    (fun x hx => by rw [List.mem_singleton.mp hx]; exact reads rx src nm h) [] blank_nil .nil
  refine ⟨.single us [], ?_, ?_, ?_, ?_, ?_⟩
  · unfold Expr.Ok; exact ⟨g1, blank_nil, fun _ => rfl⟩
  · unfold Expr.node; rw [g2]; rfl
  · unfold Expr.nest; exact g3
  · unfold Expr.text
    rw [g6, List.nil_append, List.append_nil]
    exact g6'
  · unfold Expr.text
    rw [List.append_nil]
    exact g7.noEscapes

end Joeson
