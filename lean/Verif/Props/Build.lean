import Verif.Proofs.Build2
import Verif.Model.Samples
import Verif.Spec.Operators
import Std.Data.String.ToNat
/-!
# Building grammars from lines: numbering (C43), names of alternatives (C44), well-formedness

`compile` stands for the parsing of rule texts. The theorems hold for every `compile` whose results are plain parsers.
-/

namespace Joeson

variable {compile : Bytes → Except Panic Node}

/-! ## C43 -/

/-- C43 for all lines. The rules are numbered in walk order: children before parents, included rules before
alternatives. `CountRules` is the length of the walk. A name resolves to its last place in the walk. The id of a rule
object is its last place in the walk. -/
theorem C43_walk_order (hc : ∀ s n, compile s = .ok n → n.Plain) (name : String) (lines : List Line)
    (hl : ∀ l ∈ lines, l.Plain) (m : Made) (h : grammarFromLines compile name lines = .ok m) :
    ∃ t, rankFromLines compile name lines = .ok t ∧
      m.conn.numrules = t.walk.length ∧ m.g.numRules = t.walk.length ∧
      m.g.rules.map (·.info.name) = t.walk.map (·.2) ∧
      (∀ nm id, m.g.lookup nm = some id ↔ IsLast (t.walk.map (·.2)) nm id) ∧
      ∀ a id, m.conn.idOf a = some id ↔ IsLast (t.walk.map (·.1)) a id := by
  obtain ⟨t, ht, hm⟩ := made_of_lines hc hl h
  refine ⟨t, ht, ?_, hm.numRules, hm.names, ?_, ?_⟩
  · rw [hm.ok.num, ← hm.listed]; simp [Conn.listed]
  · intro nm id; rw [hm.lookup, hm.ok.names, hm.listed]
  · intro a id; rw [hm.ok.ids, hm.listed]

theorem exists_isLast {α : Type} [DecidableEq α] {l : List α} {x : α} (h : x ∈ l) : ∃ k, IsLast l x k := by
  induction l with
  | nil => cases h
  | cons y l ih =>
    by_cases hxl : x ∈ l
    · obtain ⟨k, hk1, hk2⟩ := ih hxl
      refine ⟨k + 1, hk1, fun j hj => ?_⟩
      cases j with
      | zero => omega
      | succ j => exact hk2 j (by omega)
    · have hxy : x = y := by
        rcases List.mem_cons.mp h with h | h
        · exact h
        · exact absurd h hxl
      refine ⟨0, by simp [hxy], fun j hj => ?_⟩
      cases j with
      | zero => omega
      | succ j =>
        intro hj'
        exact hxl (List.mem_of_getElem? (by simpa using hj'))

theorem isLast_of_nodup {α : Type} {l : List α} (hd : l.Nodup) {x : α} {k : Nat} (h : l[k]? = some x) : IsLast l x k := by
  refine ⟨h, fun j hj hj' => ?_⟩
  obtain ⟨hk, rfl⟩ := List.getElem?_eq_some_iff.mp h
  obtain ⟨hj1, he⟩ := List.getElem?_eq_some_iff.mp hj'
  exact List.pairwise_iff_getElem.mp hd k j hk hj1 hj he.symm

/-- C43, as long as no rank includes a name twice: every rule object occurs once in the walk and has exactly one id; the
ids are exactly `0 .. CountRules - 1`, each for one object. Missing: ranks that include a name twice, for which this is
false (`C43_duplicate_name`, `C43_duplicate_name_panics`). -/
theorem C43_ids_dense_partial (hc : ∀ s n, compile s = .ok n → n.Plain) (name : String) (lines : List Line)
    (hl : ∀ l ∈ lines, l.Plain) (hd : ∀ l ∈ lines, l.NoDup) (hi : (includedNames lines).Nodup) (m : Made)
    (h : grammarFromLines compile name lines = .ok m) :
    ∃ t, rankFromLines compile name lines = .ok t ∧ (t.walk.map (·.1)).Nodup ∧
      (∀ a ∈ t.walk.map (·.1), ∃ id, m.conn.idOf a = some id) ∧
      (∀ a id, m.conn.idOf a = some id → a ∈ t.walk.map (·.1) ∧ id < m.g.numRules) ∧
      (∀ id, id < m.g.numRules → ∃ a, m.conn.idOf a = some id) ∧
      ∀ a b id, m.conn.idOf a = some id → m.conn.idOf b = some id → a = b := by
  obtain ⟨t, ht, _, hn, _, _, hids⟩ := C43_walk_order hc name lines hl m h
  have hnd : (t.walk.map (·.1)).Nodup := by
    simp only [rankFromLines, exceptBindOk, exceptPureOk, Prod.exists] at ht
    obtain ⟨r, n, hr, rfl⟩ := ht
    have := (rankLines_fresh hc lines hl hd (r := { name := name }) ⟨by simp, by simp, by simp, by simp⟩
      (by simpa [Rank.names] using hi) (lo := 1) (next := 1)
      (Nat.le_refl _) ⟨by simp [Rank.addrs, Rules.walkList], by simp [Rank.addrs, Rules.walkList], by simp [Rank.addrs, Rules.walkList]⟩ hr).2
    simpa [Rules.walk, Rank.addrs] using this.nodup
  refine ⟨t, ht, hnd, ?_, ?_, ?_, ?_⟩
  · intro a ha
    obtain ⟨k, hk⟩ := exists_isLast ha
    exact ⟨k, (hids a k).mpr hk⟩
  · intro a id ha
    have := (hids a id).mp ha
    exact ⟨List.mem_of_getElem? this.1, by rw [hn]; simpa using this.lt⟩
  · intro id hid
    rw [hn] at hid
    have hid' : id < (t.walk.map (·.1)).length := by simpa using hid
    exact ⟨_, (hids _ id).mpr (isLast_of_nodup hnd (List.getElem?_eq_getElem hid'))⟩
  · intro a b id ha hb
    have h1 := ((hids a id).mp ha).1
    have h2 := ((hids b id).mp hb).1
    rw [h1] at h2
    exact Option.some.inj h2

namespace Sample

/-- A compiler of two texts: `x` is a string, anything else a sequence of a string and a reference. -/
def compileX (s : Bytes) : Except Panic Node :=
  if s = asc "x" then .ok (.str { capture := false } (asc "x"))
  else .ok (.seq {} .single [.str { capture := false } (asc "x"), .ref {} "A"])

theorem compileX_plain (s : Bytes) (n : Node) (h : compileX s = .ok n) : n.Plain := by
  unfold compileX at h
  split at h
  · cases h; exact .str
  · cases h; refine .seq ?_; intro c hc
    rcases List.mem_cons.mp hc with rfl | hc
    · exact .str
    · rw [List.mem_singleton.mp hc]; exact .ref

/-- A rank of two alternatives, the second a rank itself, and two included rules. -/
def lines : List Line :=
  [.o "" (.s (asc "xA")) {}, .o "B" (.a [.o "" (.s (asc "x")) {}, .i "A" (.s (asc "x")) {}]) {}, .i "A" (.s (asc "x")) {},
    .i "C" (.s (asc "xA")) { cb := some 3 }]

/-- The same name twice, for a string. -/
def dupLines : List Line :=
  [.o "" (.s (asc "xA")) {}, .i "A" (.s (asc "x")) {}, .i "A" (.s (asc "x")) {}]

/-- The same name twice, for a sequence. -/
def dupLines2 : List Line :=
  [.o "" (.s (asc "xA")) {}, .i "A" (.s (asc "xA")) {}, .i "A" (.s (asc "xA")) {}]

/-- Number of rules, and objects with their ids. -/
def numbering (x : Except Panic Made) : Option (Nat × List (Nat × Option Nat)) :=
  match x with
  | .ok m => some (m.g.numRules, m.conn.seen.map fun a => (a, m.conn.idOf a))
  | .error _ => none

/-- The names. -/
def namesOf (x : Except Panic Made) : Option (List String) :=
  match x with
  | .ok m => some (m.g.rules.map (·.info.name))
  | .error _ => none

theorem lines_plain : ∀ l ∈ lines, l.Plain := by
  intro l hl
  simp only [lines, List.mem_cons, List.not_mem_nil, or_false] at hl
  rcases hl with rfl | rfl | rfl | rfl
  · exact .o .s
  · refine .o (.a ?_)
    intro l hl
    simp only [List.mem_cons, List.not_mem_nil, or_false] at hl
    rcases hl with rfl | rfl
    · exact .o .s
    · exact .i .s
  · exact .i .s
  · exact .i .s

theorem lines_noDup : ∀ l ∈ lines, l.NoDup := by
  intro l hl
  simp only [lines, List.mem_cons, List.not_mem_nil, or_false] at hl
  rcases hl with rfl | rfl | rfl | rfl
  · exact .o .s
  · refine .o (.a ?_ (by decide))
    intro l hl
    simp only [List.mem_cons, List.not_mem_nil, or_false] at hl
    rcases hl with rfl | rfl
    · exact .o .s
    · exact .i .s
  · exact .i .s
  · exact .i .s

end Sample

/-- The hypotheses are met by four lines with a rank inside, whose rules are numbered and named as follows; the name `A`
is that of the rules 0 and 2. -/
example : (includedNames Sample.lines).Nodup ∧
    Sample.namesOf (grammarFromLines Sample.compileX "S" Sample.lines) = some ["A", "C", "S[0]", "A", "B[0]", "B"] := by
  refine ⟨by decide, by decide +kernel⟩

/-- C43 is false if a rank includes a name twice: two rules, three numbers. The included rule has been visited twice and
has number 1; number 0 is its as well. -/
theorem C43_duplicate_name :
    Sample.numbering (grammarFromLines Sample.compileX "S" Sample.dupLines) = some (3, [(1, some 2), (3, some 1), (3, some 1)]) := by
  decide +kernel

/-- If the rule has parts, building the grammar panics (grammar.go:264-266). -/
theorem C43_duplicate_name_panics :
    (match grammarFromLines Sample.compileX "S" Sample.dupLines2 with | .error .notDag => true | _ => false) = true := by
  decide +kernel

/-! ## C44 -/

/-- Lines added to a rank: the names of the alternatives. -/
theorem rankLines_names (hc : ∀ s n, compile s = .ok n → n.Plain) : ∀ (ls : List Line), (∀ l ∈ ls, l.Plain) → ∀ {r : Rank},
    r.Ok → ∀ {next next' : Nat} {r' : Rank}, rankLines compile ls r next = .ok (r', next') →
    r'.alts.length = r.alts.length + (ownNames ls).length ∧ (∀ k, k < r.alts.length → r'.alts[k]? = r.alts[k]?) ∧
    ∀ k own, (ownNames ls)[k]? = some own → ∃ P x, r'.alts[r.alts.length + k]? = some x ∧
      x.name = altName P (r.alts.length + k) own ∧ (r.name ≠ "" → P = r.name)
  | [], _, r, hr, next, next', r', h => by
    cases h; exact ⟨rfl, fun _ _ => rfl, by simp [ownNames]⟩
  | l :: ls, hl, r, hr, next, next', r', h => by
    simp only [rankLines, exceptBindOk, Prod.exists] at h
    obtain ⟨r1, n1, h1, h2⟩ := h
    have hl0 := hl l (List.mem_cons_self ..)
    obtain ⟨ho, hnm⟩ := rankLine_plain hc l hl0 hr h1
    obtain ⟨i1, i2, i3⟩ := rankLines_names hc ls (fun l hm => hl l (List.mem_cons_of_mem _ hm)) ho h2
    match l, h1, hl0 with
    | .i name content opts, h1, hl0 =>
      have hal : r1.alts = r.alts := by
        simp only [rankLine, exceptBindOk, exceptPureOk, Prod.exists, Prod.mk.injEq] at h1
        obtain ⟨y, n1, hy, rfl, rfl⟩ := h1
        rfl
      have hown : ownNames (Line.i name content opts :: ls) = ownNames ls := rfl
      rw [hown]
      rw [hal] at i1 i2 i3
      refine ⟨i1, i2, ?_⟩
      intro k own hk
      obtain ⟨P, x, hx, hn, hP⟩ := i3 k own hk
      exact ⟨P, x, hx, hn, fun h0 => by rw [hP (by rw [hnm h0]; exact h0), hnm h0]⟩
    | .o own content opts, h1, hl0 =>
      have hl' : content.Plain := by cases hl0; assumption
      simp only [rankLine, exceptBindOk, exceptPureOk, Prod.exists, Prod.mk.injEq] at h1
      obtain ⟨y, n1, hy, rfl, rfl⟩ := h1
      have hyn := (getRule_plain hc content hl' hy).2.1
      have hown : ownNames (Line.o own content opts :: ls) = own :: ownNames ls := rfl
      rw [hown]
      simp only [List.length_append, List.length_singleton] at i1 i2 i3
      refine ⟨by simp only [List.length_cons]; omega, ?_, ?_⟩
      · intro k hk
        rw [i2 k (by omega), List.getElem?_append_left hk]
      · intro k own' hk
        cases k with
        | zero =>
          simp only [List.getElem?_cons_zero, Option.some.injEq] at hk
          subst hk
          refine ⟨r.name, y, ?_, ?_, fun _ => rfl⟩
          · rw [Nat.add_zero, i2 _ (by omega), List.getElem?_append_right (Nat.le_refl _), Nat.sub_self]; rfl
          · rw [hyn]
            simp only [oLineName, altName, Nat.add_zero]
            by_cases h0 : own = "" <;> simp [h0]
        | succ k =>
          obtain ⟨P, x, hx, hn, hP⟩ := i3 k own' hk
          refine ⟨P, x, ?_, ?_, hP⟩
          · rw [← hx]; congr 1; omega
          · rw [hn]; congr 1; omega

/-- C44: in a rank named `R` the `k`-th alternative has its own name if it is named, and is called `R[k]` otherwise. -/
theorem C44_names (hc : ∀ s n, compile s = .ok n → n.Plain) (lines : List Line) (hl : ∀ l ∈ lines, l.Plain) (R : String)
    (hR : R ≠ "") (next next' : Nat) (r : Rank) (h : rankLines compile lines { name := R } next = .ok (r, next')) :
    r.name = R ∧ r.alts.map Rules.name = (ownNames lines).mapIdx (altName R) := by
  obtain ⟨h1, _, h3⟩ := rankLines_names hc lines hl (r := { name := R }) ⟨by simp, by simp, by simp, by simp⟩ h
  refine ⟨(rankLines_plain hc lines hl ⟨by simp, by simp, by simp, by simp⟩ h).2 hR, ?_⟩
  refine List.ext_getElem? fun k => ?_
  simp only [List.length_nil, Nat.zero_add] at h1 h3
  rw [List.getElem?_map, List.getElem?_mapIdx]
  cases hk : (ownNames lines)[k]? with
  | none =>
    have : r.alts[k]? = none := by
      rw [List.getElem?_eq_none_iff, h1]; exact List.getElem?_eq_none_iff.mp hk
    rw [this]; rfl
  | some own =>
    obtain ⟨P, x, hx, hn, hP⟩ := h3 k own hk
    rw [hx]
    simp [hn, hP hR]

/-- The number can be read back from an anonymous name. -/
theorem altName_inj {P Q : String} {k j : Nat} (h : altName P k "" = altName Q j "") : k = j := by
  have key : ∀ (P : String) (k : Nat), ((altName P k "").toList.reverse.drop 1).takeWhile Char.isDigit = (Nat.toDigits 10 k).reverse := by
    intro P k
    have hd : ∀ c ∈ (Nat.toDigits 10 k).reverse, c.isDigit = true := fun c hc =>
      Nat.isDigit_of_mem_toDigits (by decide) (by decide) (List.mem_reverse.mp hc)
    have ht : (toString k).toList = Nat.toDigits 10 k := by
      show (Nat.repr k).toList = _
      simp
    have : (altName P k "").toList.reverse.drop 1 = (Nat.toDigits 10 k).reverse ++ '[' :: P.toList.reverse := by
      simp only [altName, if_true, String.toList_append, ht, List.reverse_append]
      rfl
    rw [this, List.takeWhile_append_of_pos hd]
    simp
  have h' : (Nat.toDigits 10 k).reverse = (Nat.toDigits 10 j).reverse := by rw [← key P, ← key Q, h]
  refine Nat.repr_injective ?_
  rw [Nat.repr, Nat.repr, List.reverse_inj.mp h']

/-- C44: anonymous alternatives of one rank have different names, whatever the name of the rank (a rank named "" takes
the name of the first rule it includes). -/
theorem C44_anonymous_different (hc : ∀ s n, compile s = .ok n → n.Plain) (lines : List Line) (hl : ∀ l ∈ lines, l.Plain)
    (R : String) (next next' : Nat) (r : Rank) (h : rankLines compile lines { name := R } next = .ok (r, next'))
    (k j : Nat) (x y : Rules) (hx : r.alts[k]? = some x) (hy : r.alts[j]? = some y)
    (hk : (ownNames lines)[k]? = some "") (hj : (ownNames lines)[j]? = some "") (hn : x.name = y.name) : k = j := by
  obtain ⟨_, _, h3⟩ := rankLines_names hc lines hl (r := { name := R }) ⟨by simp, by simp, by simp, by simp⟩ h
  simp only [List.length_nil, Nat.zero_add] at h3
  obtain ⟨P, x', hx', hxn, _⟩ := h3 k "" hk
  obtain ⟨Q, y', hy', hyn, _⟩ := h3 j "" hj
  rw [hx] at hx'; cases hx'
  rw [hy] at hy'; cases hy'
  rw [hxn, hyn] at hn
  exact altName_inj hn

/-- Names of the alternatives of the top rank. -/
def Sample.altsOf (x : Except Panic (Rank × Nat)) : Option (String × List String) :=
  match x with
  | .ok (r, _) => some (r.name, r.alts.map Rules.name)
  | .error _ => none

example : Sample.altsOf (rankLines Sample.compileX Sample.lines { name := "S" } 1) = some ("S", ["S[0]", "B"]) ∧
    ownNames Sample.lines = ["", "B"] := by
  constructor <;> decide +kernel

/-- A rank named "": its alternatives before and after the first included rule. -/
example : Sample.altsOf (rankLines Sample.compileX [.o "" (.s (asc "x")) {}, .i "A" (.s (asc "x")) {}, .o "" (.s (asc "x")) {}]
    { name := "" } 1) = some ("A", ["[0]", "A[1]"]) := by decide +kernel

/-! ## Grammars built from lines are well formed -/

/-- Every grammar built from lines meets the condition `Built` of the theorems on the engine, if none of its start rules
is a parser given to `Named`. -/
theorem built_of_lines (hc : ∀ s n, compile s = .ok n → n.Plain) (name : String) (lines : List Line)
    (hl : ∀ l ∈ lines, l.Plain) (hw : ∀ l ∈ lines, l.wrapped = false) (m : Made)
    (h : grammarFromLines compile name lines = .ok m) : m.g.Built := by
  obtain ⟨t, _, _, hn, _, hlook, _⟩ := C43_walk_order hc name lines hl m h
  simp only [grammarFromLines, exceptBindOk] at h
  obtain ⟨t', ht, h⟩ := h
  simp only [rankFromLines, exceptBindOk, exceptPureOk, Prod.exists] at ht
  obtain ⟨r, n, hr, rfl⟩ := ht
  have hok := (rankLines_plain hc lines hl ⟨by simp, by simp, by simp, by simp⟩ hr).1
  have hmem := rankLines_memoised hc lines hl hw (by simp) hr
  obtain ⟨_, hb, hk, i, l, h1, h2, h3, h4⟩ := postinit_made rfl rfl ⟨hok.incl, hok.alts, hok.inclR, hok.altsR⟩ h
  exact {
    rules := hb
    noAlias := fun n hn => Node.isLink_false.mp (hk n hn)
    lookup := fun nm id hid => by
      have := ((hlook nm id).mp hid).lt
      rw [hn]; simpa using this
    root := ⟨i, l, h1, h2, h3, h4 hmem⟩ }

example : (∀ l ∈ Sample.lines, l.Plain) ∧ (∀ l ∈ Sample.lines, l.wrapped = false) ∧
    (Sample.namesOf (grammarFromLines Sample.compileX "S" Sample.lines)).isSome :=
  ⟨Sample.lines_plain, by intro l hl; simp only [Sample.lines, List.mem_cons, List.not_mem_nil, or_false] at hl; rcases hl with rfl | rfl | rfl | rfl <;> rfl,
    by decide +kernel⟩

end Joeson
