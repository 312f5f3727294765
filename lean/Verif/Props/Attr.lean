import Verif.Spec.Attr
import Verif.Props.Readme
/-!
# C83: what is set on a node is got back
-/

namespace Joeson
open RuleText

theorem calls_attr : ∀ (l : List AttrCall) (a : Attr), ∃ b, Holder.calls l (.node (some a)) = .ok (.node (some b)) ∧
    b.code = ((lastOrigin l).map (·.code)).getD a.code ∧ b.line = (lastLine l).getD a.line ∧
    (endsInOrigin l = true → ∃ o, lastOrigin l = some o ∧ b.start = o.start ∧ b.stop = o.stop) ∧
    (endsInOrigin l = false → l ≠ [] → b.start = 0 ∧ b.stop = 0)
  | [], a => ⟨a, rfl, rfl, rfl, nofun, fun _ h => absurd rfl h⟩
  | .line n :: l, a => by
    obtain ⟨b, h1, h2, h3, h4, h5⟩ := calls_attr l { a with line := n, start := 0, stop := 0 }
    refine ⟨b, h1, h2, ?_, ?_, ?_⟩
    · rw [h3]; simp [lastLine]
    · intro h; exact h4 (by cases l with | nil => cases h | cons x l => exact h)
    · intro h _
      cases l with
      | nil => cases h1; exact ⟨rfl, rfl⟩
      | cons x l => exact h5 h (by simp)
  | .origin o :: l, a => by
    obtain ⟨b, h1, h2, h3, h4, h5⟩ := calls_attr l { code := o.code, start := o.start, stop := o.stop, line := o.line }
    refine ⟨b, h1, ?_, ?_, ?_, ?_⟩
    · rw [h2]; cases h : lastOrigin l <;> simp [lastOrigin, h]
    · rw [h3]; simp [lastLine]
    · intro h
      cases l with
      | nil => cases h1; exact ⟨o, rfl, rfl, rfl⟩
      | cons x l =>
        obtain ⟨o', ho, h6, h7⟩ := h4 h
        exact ⟨o', by simp [lastOrigin, ho], h6, h7⟩
    · intro h _
      cases l with
      | nil => cases h
      | cons x l => exact h5 h (by simp)

/-- C83, partial: after any calls a node with an `Attr` gives back the text and the line that were set last. Start and end are given
back if `SetOrigin` was called after `SetLine`, which sets both to 0. The name of the rule is never given back. -/
theorem C83_get_after_set_partial (l : List AttrCall) (hl : l ≠ []) (a : Attr) : ∃ x o, Holder.calls l (.node (some a)) = .ok x ∧ x.getOrigin = .ok o ∧
    x.getLine = .ok o.line ∧ some o.line = lastLine l ∧ o.code = ((lastOrigin l).map (·.code)).getD a.code ∧
    (endsInOrigin l = true → ∃ o', lastOrigin l = some o' ∧ o.start = o'.start ∧ o.stop = o'.stop) ∧
    (endsInOrigin l = false → o.start = 0 ∧ o.stop = 0) ∧ o.ruleName = [] := by
  obtain ⟨b, h1, h2, h3, h4, h5⟩ := calls_attr l a
  refine ⟨_, _, h1, rfl, rfl, ?_, h2, h4, fun h => h5 h hl, rfl⟩
  show some b.line = _
  rw [h3]
  cases l with
  | nil => exact absurd rfl hl
  | cons c l => cases c <;> simp [lastLine]

/-- C83, a finding: the name of the rule is lost. -/
theorem C83_rule_name_lost (o : FullOrigin) (h : o.ruleName ≠ []) (a : Attr) :
    ((Holder.node (some a)).setOrigin o >>= Holder.getOrigin) ≠ .ok o := by
  intro he
  have he : Except.ok (ε := Panic) ({ code := o.code, line := o.line, start := o.start, stop := o.stop } : FullOrigin) = .ok o := he
  injection he with he
  exact h (by rw [← he])

/-- C83, a finding: strings, numbers and arrays give back nothing, and are on line 1. -/
theorem C83_natives_forget (l : List AttrCall) : Holder.calls l .native = .ok .native ∧ Holder.native.getOrigin = .ok {} ∧ Holder.native.getLine = .ok 1 := by
  refine ⟨?_, rfl, rfl⟩
  induction l with
  | nil => rfl
  | cons c l ih => cases c <;> exact ih

/-- C83, a finding: no node can be given an attribute, and an attribute that a node does not have is `false` rather than nil, unless
the node is a string, a number or an array. -/
theorem C83_no_attributes {α : Type} (x : Holder) (k : Bytes) (v : α) : x.setAttribute k v = .error .assertion ∧ x.hasAttribute k = false ∧
    (x.getAttribute k : Found α) = if x = .native then .nil else .bool false := by
  cases x <;> exact ⟨rfl, rfl, rfl⟩

/-- `S: 'a'` with a callback. -/
def attrG : List GLine := [.alt "S" (some 0) (.text (.single (.one [] none (.prim (quoteP "a"))) []))]

theorem attrG_names : GoodNames attrG := by
  refine goodNames_of rfl (by show (["S"] : List String).Nodup; decide) fun d hd => ?_
  have : d.1 ∈ ["S"] := List.mem_map_of_mem (f := (·.1)) hd
  rw [List.mem_singleton.mp this]
  decide

theorem attrG_texts (rx : Bytes → Option Regex) : AllLines (TextOk rx attrG) attrG := textsOk_of rx (by kernel_rfl)

/-- C83, a finding: if the node that a callback returns embeds an `*Attr` that was not made with `NewAttr`, the parse panics. Shown
for the grammar `S: 'a'`, any regexp compiler and callback, and any text that begins with `a`. -/
theorem C83_nil_attr (rx : Bytes → Option Regex) (u : Ast → Holder) (cb : Ast → Except Panic (Option Ast)) (w : Ast) (hw : cb (.str (asc "a")) = .ok (some w))
    (hu : u w = .node none) (s : Bytes) :
    LibGives rx attrG ((treePure fun _ v _ => cb v).needAttr u) (asc "a" ++ s) (.error .nilDeref) := by
  refine libGives_of attrG_names (attrG_texts rx) (fun _ _ => rfl) (d := 1) (by decide) (.altDone ?_ (by simp))
  have h := Yields.rtext (P := (treePure fun _ v _ => cb v).needAttr u) (N := (asc "a" ++ s).length) (L := attrG) (d := 0) (cb := some 0) (e := .single (.one [] none (.prim (quoteP "a"))) [])
    (p := .lit "" (asc "a")) (by kernel_rfl) (Yields.plit (h := false) (b := asc "a") (s := s))
  have he : called ((treePure fun _ v _ => cb v).needAttr u) (asc "a" ++ s).length (some 0) (.ok (some (((treePure fun _ v _ => cb v).needAttr u).str (asc "a"), s))) = .error .nilDeref := by
    have : ((treePure fun _ v _ => cb v).needAttr u).str (asc "a") = .str (asc "a") := rfl
    rw [this]
    simp only [called, PureOps.needAttr, treePure, hw, hu, Holder.setOrigin]
  rwa [he] at h

/-- With an `Attr` it does not. -/
theorem C83_with_attr (rx : Bytes → Option Regex) (u : Ast → Holder) (cb : Ast → Except Panic (Option Ast)) (w : Ast) (hw : cb (.str (asc "a")) = .ok (some w))
    (hu : u w ≠ .node none) (s : Bytes) :
    LibGives rx attrG ((treePure fun _ v _ => cb v).needAttr u) (asc "a" ++ s) (.ok (some (w, s))) := by
  refine libGives_of attrG_names (attrG_texts rx) (fun _ _ => rfl) (d := 1) (by decide) (.altDone ?_ (by simp))
  have h := Yields.rtext (P := (treePure fun _ v _ => cb v).needAttr u) (N := (asc "a" ++ s).length) (L := attrG) (d := 0) (cb := some 0) (e := .single (.one [] none (.prim (quoteP "a"))) [])
    (p := .lit "" (asc "a")) (by kernel_rfl) (Yields.plit (h := false) (b := asc "a") (s := s))
  have he : called ((treePure fun _ v _ => cb v).needAttr u) (asc "a" ++ s).length (some 0) (.ok (some (((treePure fun _ v _ => cb v).needAttr u).str (asc "a"), s))) = .ok (some (w, s)) := by
    have : ((treePure fun _ v _ => cb v).needAttr u).str (asc "a") = .str (asc "a") := rfl
    rw [this]
    simp only [called, PureOps.needAttr, treePure, hw]
    match hh : u w, hu with
    | .native, _ => simp only [Holder.setOrigin]
    | .node (some a), _ => simp only [Holder.setOrigin]
  rwa [he] at h

/-- Calls that end in `SetLine`, and calls that end in `SetOrigin`. -/
example : (Holder.calls [.origin ⟨asc "x", 1, 2, 3, asc "R"⟩, .line 7] (.node (some {})) >>= Holder.getOrigin) = .ok ⟨asc "x", 7, 0, 0, []⟩ ∧
    (Holder.calls [.line 7, .origin ⟨asc "x", 1, 2, 3, asc "R"⟩] (.node (some {})) >>= Holder.getOrigin) = .ok ⟨asc "x", 1, 2, 3, []⟩ := ⟨rfl, rfl⟩

/-- A callback that returns a node of the application, without and with an `Attr`. -/
example (rx : Bytes → Option Regex) :
    LibGives rx attrG ((treePure fun _ _ _ => .ok (some (.user 1 []))).needAttr fun v => match v with | .user _ _ => .node none | _ => .native) (asc "ab") (.error .nilDeref) ∧
    LibGives rx attrG ((treePure fun _ _ _ => .ok (some (.user 1 []))).needAttr fun v => match v with | .user _ _ => .node (some {}) | _ => .native) (asc "a") (.ok (some (.user 1 [], []))) :=
  ⟨C83_nil_attr rx _ (fun _ => .ok (some (.user 1 []))) _ rfl rfl (asc "b"), C83_with_attr rx _ (fun _ => .ok (some (.user 1 []))) _ rfl (by simp) []⟩

end Joeson
