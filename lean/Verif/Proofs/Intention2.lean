import Verif.Proofs.Intention
import Verif.Proofs.LeftRecB
import Verif.Proofs.Lang2
import Verif.Props.RuleText
/-!
# Grammars depend on the texts of their lines only through what they compile to
-/

namespace Joeson

mutual
/-- The texts of a line. -/
def Line.texts : Line → List Bytes
  | .o _ c _ | .i _ c _ => c.texts
  | .a ls => lineTexts ls
  | .s t => [t]
  | .c _ _ => []
/-- The texts of lines. -/
def lineTexts : List Line → List Bytes
  | [] => []
  | l :: ls => l.texts ++ lineTexts ls
end

section
variable {c c' : Bytes → Except Panic Node}

mutual
theorem getRule_congr : ∀ (l : Line), (∀ t ∈ l.texts, c t = c' t) → ∀ (name parent : String) (opts : RuleOpts) (next : Nat),
    getRule c name parent opts next l = getRule c' name parent opts next l
  | .a ls, h, name, parent, opts, next => by
    simp only [getRule]
    rw [rankLines_congr ls h]
  | .c _ _, _, name, parent, opts, next => by simp only [getRule]
  | .i _ _ _, _, name, parent, opts, next => by simp only [getRule]
  | .o own content _, h, name, parent, opts, next => by
    simp only [getRule]
    rw [getRule_congr content h]
  | .s t, h, name, parent, opts, next => by
    simp only [getRule]
    rw [h t (by simp [Line.texts])]
theorem rankLine_congr : ∀ (l : Line), (∀ t ∈ l.texts, c t = c' t) → ∀ (r : Rank) (next : Nat), rankLine c r next l = rankLine c' r next l
  | .o own content opts, h, r, next => by
    simp only [rankLine]
    rw [getRule_congr content h]
  | .i name content opts, h, r, next => by
    simp only [rankLine]
    rw [getRule_congr content h]
  | .a _, _, r, next => by simp only [rankLine]
  | .s _, _, r, next => by simp only [rankLine]
  | .c _ _, _, r, next => by simp only [rankLine]
theorem rankLines_congr : ∀ (ls : List Line), (∀ t ∈ lineTexts ls, c t = c' t) → ∀ (r : Rank) (next : Nat),
    rankLines c ls r next = rankLines c' ls r next
  | [], _, r, next => by simp only [rankLines]
  | l :: ls, h, r, next => by
    simp only [rankLines]
    rw [rankLine_congr l fun t ht => h t (List.mem_append_left _ ht)]
    congr 1
    funext x
    exact rankLines_congr ls (fun t ht => h t (List.mem_append_right _ ht)) _ _
end

theorem grammarFromLines_congr {lines : List Line} (h : ∀ t ∈ lineTexts lines, c t = c' t) (name : String) :
    grammarFromLines c name lines = grammarFromLines c' name lines := by
  unfold grammarFromLines rankFromLines
  rw [rankLines_congr lines h]

theorem grammarFromLines_bind {X : Except Panic (List Line)} (h : ∀ L, X = .ok L → ∀ t ∈ lineTexts L, c t = c' t) (name : String) :
    (do grammarFromLines c name (← X)) = (do grammarFromLines c' name (← X)) := by
  cases X with
  | error e => rfl
  | ok L => exact grammarFromLines_congr (h L rfl) name

end

theorem grammar_noMono' {c : Bytes → Except Panic Node} (hc : ∀ s n, c s = .ok n → n.Plain) (X : Except Panic (List Line))
    (hp : ∀ L, X = .ok L → ∀ l ∈ L, l.Plain) (name : String) :
    (do grammarFromLines c name (← X)) = (do Joe.postinitNoMono (← rankFromLines c name (← X))) := by
  cases X with
  | error e => rfl
  | ok L =>
    show grammarFromLines _ _ L = (do Joe.postinitNoMono (← rankFromLines _ _ L))
    unfold grammarFromLines
    cases hr : rankFromLines c name L with
    | error e => rfl
    | ok x =>
      show postinit x = Joe.postinitNoMono x
      rw [Joe.postinit_eq]
      simp only [rankFromLines, exceptBindOk, exceptPureOk, Prod.exists] at hr
      obtain ⟨r, n, hr, rfl⟩ := hr
      have hok := (rankLines_plain hc L (hp L rfl) ⟨by simp, by simp, by simp, by simp⟩ hr).1
      exact .rank hok.incl hok.alts rfl hok.inclR hok.altsR

namespace Intent
open RuleText Joe

/-- The lines, if they are. -/
def lineList : List Line := match intentionLines with
  | .ok l => l
  | .error _ => []

theorem lines_ok : intentionLines = .ok lineList := by kernel_rfl

theorem lines_plain : ∀ l ∈ lineList, l.Plain := linesPlainB_plain (by kernel_rfl)

theorem lines_wrapped : ∀ l ∈ lineList, l.wrapped = false := by
  have : lineList.all (fun l => !l.wrapped) = true := by kernel_rfl
  intro l hl
  simpa using List.all_eq_true.mp this l hl

/-- The trees of the texts. -/
def exprs : List Expr := linesExprs lines

theorem texts_eq : lineTexts lineList = exprs.map Expr.text := by kernel_rfl

theorem table_eq : exprs.map (fun e => table exprs e.text) = exprs.map fun e => .ok e.node := by kernel_rfl

theorem table_plain {l : List Expr} : ∀ s n, table l s = .ok n → n.Plain := by
  intro s n h
  unfold table at h
  split at h
  · cases h; exact expr_plain _
  · cases h

theorem compile_eq {c : Bytes → Except Panic Node} (hc : ∀ e ∈ exprs, c e.text = .ok e.node) :
    (do grammarFromLines c "gmIntention" (← intentionLines)) =
      (do postinitNoMono (← rankFromLines (table exprs) "gmIntention" (← intentionLines))) := by
  rw [← grammar_noMono' (c := table exprs) table_plain intentionLines (fun L hL => by
    rw [lines_ok] at hL; cases hL; exact lines_plain) "gmIntention"]
  refine grammarFromLines_bind ?_ "gmIntention"
  intro L hL t ht
  rw [lines_ok] at hL
  cases hL
  rw [texts_eq] at ht
  obtain ⟨e, he, rfl⟩ := List.mem_map.mp ht
  rw [hc e he]
  exact (List.map_inj_left.mp table_eq e he).symm

/-- Whatever compiles the texts of the intention grammar to what they denote, the result is `I`. -/
theorem made {c : Bytes → Except Panic Node} (hc : ∀ e ∈ exprs, c e.text = .ok e.node) :
    ∃ m, (do grammarFromLines c "gmIntention" (← intentionLines)) = .ok m ∧ m.g = I := by
  rw [compile_eq hc]
  exact map_ok eval_eq

theorem made_lines {c : Bytes → Except Panic Node} {m : Made} (h : (do grammarFromLines c "gmIntention" (← intentionLines)) = .ok m) :
    grammarFromLines c "gmIntention" lineList = .ok m := bind_ok lines_ok h

theorem built : I.Built := by
  have hc : ∀ e ∈ exprs, table exprs e.text = .ok e.node := List.map_inj_left.mp table_eq
  obtain ⟨m, hm, hI⟩ := made hc
  rw [← hI]
  exact built_of_lines table_plain "gmIntention" lineList lines_plain lines_wrapped m (made_lines hm)

theorem noTrace {tr : Trace} (h : tr.stack = false) : NoTrace I tr [] := by
  refine ⟨h, (fun _ h => by cases h), ?_⟩
  have : I.rules.all (fun n => !n.info.debug) = true := by decide +kernel
  intro n hn
  simpa using List.all_eq_true.mp this n hn

theorem lookup_eq (nm : String) : G.lookup nm = I.lookup nm := rfl

theorem means_rename {E : PegEnv JVal} {d q : Nat} {i i' : Info} {l : List Node} {p : Nat} {r : Res JVal}
    (h1 : i.ownLabel = false ∧ i.cb = none) (h2 : i'.ownLabel = false ∧ i'.cb = none)
    (h : Means E d q (.node (.choice i l)) p r) : Means E d q (.node (.choice i' l)) p r := by
  cases h with
  | plain _ _ h =>
    refine .plain rfl (by simp [Node.wraps, Node.info, h2]) ?_
    cases h with
    | choice h => exact .choice h
  | wrapped _ hw => simp [Node.wraps, Node.info, h1] at hw

/-- The meaning of a rule text is the same in both grammars. -/
theorem means {rx : Bytes → Option Regex} {text : Bytes} {d : Nat} {r : Res JVal} (h : TextMeans (joesonOps rx) G text d r) :
    TextMeans (joesonOps rx) I text (d + 2) r := by
  have h : Means ⟨joesonOps rx, Stream.ofText text, G⟩ d 0 (.node I.root) 0 r :=
    means_rename ⟨rfl, rfl⟩ ⟨rfl, rfl⟩ h
  exact Means.inl (C := 2) (k := 2) (fun _ _ => rfl) lookup_eq rfl (fun id body body' h1 h2 => inl_rules.to.2 id body body' h1 h2) h 0
    (.node (.choices (.cons .rule .nil))) (Nat.le_refl _)

/-! ## No left recursion -/

theorem solid_run {f m : UInt8 → Bool} (bs : Bytes) : (runRegex f m).find bs ≠ some (0, 0) := by
  simp only [runRegex]
  split
  · intro h; injection h with h; injection h with h1 h2; omega
  · simp

theorem solid_any (bs : Bytes) : reAny.find bs ≠ some (0, 0) := by
  simp only [reAny]
  split
  · simp
  · rename_i h
    intro h'
    injection h' with h'
    injection h' with h1 h2
    have := decodeRune_width_pos h
    have : 0 < bs.length := List.length_pos_iff.mpr h
    omega

theorem joeson_solid : SolidAll G.rules := by
  have h1 : ∀ bs, reWord.find bs ≠ some (0, 0) := solid_run
  have h2 : ∀ bs, reInt.find bs ≠ some (0, 0) := solid_run
  have h3 : ∀ bs, reAny.find bs ≠ some (0, 0) := solid_any
  simp [G, Joe.rules, SolidAll, Node.SolidRe, Joe.labelBody, wordBody, intBody, Joe.pipeBody, wsBody, wssBody, anyBody, Joe.escBody,
    Joe.ws, Joe.pipe, Joe.quoted, Joe.chars, Joe.bound, Joe.joinItem, Joe.labelSeq, Joe.codeSeq, tok, blank, -ne_eq]
  exact ⟨h1, h2, h3, h1, h2, h3, h1, h3⟩

theorem joeson_noLeftRec : G.NoLeftRec := by
  refine noLeftRecB_ok (nn := [0,1,2,3,5,6,7,8,9,10,11,12,13,14,15,16,17,18,19,20,21,22,23,24,25,26,27,28,29,30,31,32,33,34])
    (rk := fun id => [0, 0, 0, 0, 0, 0, 0, 0, 0, 14, 12, 10, 8, 6, 1, 4, 4, 4, 4, 4, 4, 5, 1, 2, 2, 2, 2, 2, 2, 3, 7, 9, 11, 13, 15].getD id 0)
    joeson_solid ?_
  decide +kernel

end Intent
end Joeson
