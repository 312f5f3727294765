import Verif.Spec.Lang
/-!
# Matching by the rules of `Parses` is deterministic, and can be computed
-/

set_option linter.unusedVariables false

namespace Joeson.RuleText

variable {L : List GLine}

/-- A rule by its name. -/
theorem decl_unique {l : List (String × Body)} (h : (l.map (·.1)).Nodup) {nm : String} {b b' : Body} (h1 : (nm, b) ∈ l)
    (h2 : (nm, b') ∈ l) : b = b' := by
  induction l with
  | nil => cases h1
  | cons x l ih =>
    simp only [List.map_cons, List.nodup_cons, List.mem_map, Prod.exists, exists_and_right, exists_eq_right, not_exists] at h
    rcases List.mem_cons.mp h1 with e1 | m1
    · rcases List.mem_cons.mp h2 with e2 | m2
      · rw [← e1] at e2; cases e2; rfl
      · subst e1; exact absurd m2 (h.1 _)
    · rcases List.mem_cons.mp h2 with e2 | m2
      · subst e2; exact absurd m1 (h.1 _)
      · exact ih h.2 m1 m2

/-- There is at most one result. -/
theorem parses_unique (hnd : ((declsOf L).map (·.1)).Nodup) {d : Nat} {j : Job} {s : Bytes} {x : Option Bytes} (h : Parses L d j s x) :
    ∀ {d' : Nat} {y : Option Bytes}, Parses L d' j s y → x = y := by
  induction h with
  | @lit d b s =>
    intro d' y hy
    generalize hs : b ++ s = t at hy
    cases hy with
    | lit => exact congrArg some (List.append_cancel_left hs)
    | litMiss h => exact absurd hs.symm (h _)
  | litMiss h =>
    intro d' y hy
    cases hy with
    | lit => exact absurd rfl (h _)
    | litMiss => rfl
  | re h =>
    intro d' y hy
    cases hy with
    | re h' => rw [h] at h'; cases h'; rfl
    | reMiss h' => exact absurd h (h' _)
  | reMiss h =>
    intro d' y hy
    cases hy with
    | re h' => exact absurd h' (h _)
    | reMiss => rfl
  | name hm _ ih =>
    intro d' y hy
    cases hy with
    | name hm' h' => cases decl_unique hnd hm hm'; exact ih h'
  | alt _ ih => intro d' y hy; cases hy with | alt h' => exact ih h'
  | altsEnd => intro d' y hy; cases hy; rfl
  | altsHit _ ih =>
    intro d' y hy
    cases hy with
    | altsHit h' => exact ih h'
    | altsMiss h' _ => cases ih h'
  | altsMiss _ _ ih1 ih2 =>
    intro d' y hy
    cases hy with
    | altsHit h' => cases ih1 h'
    | altsMiss _ h' => exact ih2 h'
  | seq _ ih => intro d' y hy; cases hy with | seq h' => exact ih h'
  | seqEnd => intro d' y hy; cases hy; rfl
  | seqMiss _ ih =>
    intro d' y hy
    cases hy with
    | seqMiss => rfl
    | seqNext h' _ => cases ih h'
  | seqNext _ _ ih1 ih2 =>
    intro d' y hy
    cases hy with
    | seqMiss h' => cases ih1 h'
    | seqNext h' h'' => cases ih1 h'; exact ih2 h''
  | opt _ ih =>
    intro d' y hy
    cases hy with
    | opt h' => exact ih h'
    | optMiss h' => cases ih h'
  | optMiss _ ih =>
    intro d' y hy
    cases hy with
    | opt h' => cases ih h'
    | optMiss => rfl
  | not _ ih =>
    intro d' y hy
    cases hy with
    | not => rfl
    | notMiss h' => cases ih h'
  | notMiss _ ih =>
    intro d' y hy
    cases hy with
    | not h' => cases ih h'
    | notMiss => rfl
  | look _ ih =>
    intro d' y hy
    cases hy with
    | look => rfl
    | lookMiss h' => cases ih h'
  | lookMiss _ ih =>
    intro d' y hy
    cases hy with
    | look h' => cases ih h'
    | lookMiss => rfl
  | rep0 _ ih =>
    intro d' y hy
    cases hy with
    | rep0 => rfl
    | rep h' _ => cases ih h'
  | rep _ _ ih1 ih2 =>
    intro d' y hy
    cases hy with
    | rep0 h' => cases ih1 h'
    | rep h' h'' => cases ih1 h'; exact ih2 h''
  | sepNone => intro d' y hy; cases hy; rfl
  | sepSome _ ih => intro d' y hy; cases hy with | sepSome h' => exact ih h'
  | full hr =>
    intro d' y hy
    cases hy with
    | full => rfl
    | noSep h => exact absurd h hr
    | noMore h => exact absurd h hr
    | more h => exact absurd h hr
  | noSep hr _ ih =>
    intro d' y hy
    cases hy with
    | full h => rfl
    | noSep h => rfl
    | noMore h => rfl
    | more h h' => cases ih h'
  | noMore hr _ _ ih1 ih2 =>
    intro d' y hy
    cases hy with
    | full h => rfl
    | noSep h => rfl
    | noMore h => rfl
    | more h h' h'' => cases ih1 h'; cases ih2 h''
  | more hr _ _ _ ih1 ih2 ih3 =>
    intro d' y hy
    cases hy with
    | full h => exact absurd hr h
    | noSep h h' => cases ih1 h'
    | noMore h h' h'' => cases ih1 h'; cases ih2 h''
    | more h h' h'' h3 => cases ih1 h'; cases ih2 h''; exact ih3 h3
  | text _ ih => intro d' y hy; cases hy with | text h' => exact ih h'
  | rank _ ih => intro d' y hy; cases hy with | rank h' => exact ih h'
  | linesEnd => intro d' y hy; cases hy; rfl
  | incl _ ih => intro d' y hy; cases hy with | incl h' => exact ih h'
  | altHit _ ih =>
    intro d' y hy
    cases hy with
    | altHit h' => exact ih h'
    | altMiss h' _ => cases ih h'
  | altMiss _ _ ih1 ih2 =>
    intro d' y hy
    cases hy with
    | altHit h' => cases ih1 h'
    | altMiss _ h' => exact ih2 h'

/-- What is left of `s` after `b`. -/
def after : Bytes → Bytes → Option Bytes
  | [], s => some s
  | _ :: _, [] => none
  | x :: b, y :: s => if x = y then after b s else none

theorem after_spec : ∀ (b s : Bytes), match after b s with
    | some s' => s = b ++ s'
    | none => ∀ s', s ≠ b ++ s'
  | [], s => rfl
  | x :: b, [] => by simp [after]
  | x :: b, y :: s => by
    unfold after
    by_cases h : x = y
    · subst h
      rw [if_pos rfl]
      have := after_spec b s
      split <;> rename_i h' <;> rw [h'] at this
      · simpa using this
      · intro s' h; simp only [List.cons_append, List.cons.injEq, true_and] at h; exact this s' h
    · rw [if_neg h]
      intro s' h'
      simp only [List.cons_append, List.cons.injEq] at h'
      exact h h'.1.symm

/-- The rest of a repetition. -/
def roomB : Option Nat → Nat → Bool
  | none, _ => true
  | some m, n => decide (n < max m 2)

theorem roomB_spec (mx : Option Nat) (n : Nat) : roomB mx n = true ↔ Room mx n := by
  cases mx <;> simp [roomB, Room]

/-- The rules as a function. `none`: `k` steps, or `d` nested rules, were not enough. -/
def run (L : List GLine) : Nat → Nat → Job → Bytes → Option (Option Bytes)
  | 0, _, _, _ => none
  | k + 1, d, j, s =>
    match j with
    | .pat (.lit b) => some (after b s)
    | .pat (.re r) => match r.find s with
      | some (0, n) => some (some (s.drop n))
      | _ => some none
    | .pat (.name nm) => match (declsOf L).find? (·.1 == nm) with
      | some x => run L k d (.body x.2) s
      | none => none
    | .pat (.alt l) => run L k d (.alts l) s
    | .alts [] => some none
    | .alts (p :: l) => match run L k d (.pat p) s with
      | some (some s') => some (some s')
      | some none => run L k d (.alts l) s
      | none => none
    | .pat (.seq l) => run L k d (.seq l) s
    | .seq [] => some (some s)
    | .seq (p :: l) => match run L k d (.pat p) s with
      | some (some s') => run L k d (.seq l) s'
      | some none => some none
      | none => none
    | .pat (.opt p) => match run L k d (.pat p) s with
      | some (some s') => some (some s')
      | some none => some (some s)
      | none => none
    | .pat (.not p) => match run L k d (.pat p) s with
      | some (some _) => some none
      | some none => some (some s)
      | none => none
    | .pat (.look p) => match run L k d (.pat p) s with
      | some (some _) => some (some s)
      | some none => some none
      | none => none
    | .pat (.rep v sep mn mx) => match run L k d (.pat v) s with
      | some (some s') => run L k d (.more v sep mn mx 1) s'
      | some none => some (stop mn 0 s)
      | none => none
    | .sep none => some (some s)
    | .sep (some p) => run L k d (.pat p) s
    | .more v sep mn mx n =>
      if roomB mx n then
        match run L k d (.sep sep) s with
        | some (some s') => match run L k d (.pat v) s' with
          | some (some s'') => run L k d (.more v sep mn mx (n + 1)) s''
          | some none => some (stop mn n s)
          | none => none
        | some none => some (stop mn n s)
        | none => none
      else some (stop mn n s)
    | .body (.text e) => match d with
      | d + 1 => run L k d (.pat e.pat) s
      | 0 => none
    | .body (.rank ls) => match d with
      | d + 1 => run L k d (.lines ls) s
      | 0 => none
    | .lines [] => some none
    | .lines (.incl _ _ _ :: ls) => run L k d (.lines ls) s
    | .lines (.alt _ _ b :: ls) => match run L k d (.body b) s with
      | some (some s') => some (some s')
      | some none => run L k d (.lines ls) s
      | none => none

theorem run_sound : ∀ (k d : Nat) (j : Job) (s : Bytes) (x : Option Bytes), run L k d j s = some x → Parses L d j s x
  | 0, _, _, _, _, h => by cases h
  | k + 1, d, .pat (.lit b), s, x, h => by
    cases h
    have := after_spec b s
    split at this <;> rename_i h <;> rw [h]
    · subst this; exact .lit
    · exact .litMiss this
  | k + 1, d, .pat (.re r), s, x, h => by
    simp only [run] at h
    split at h
    · rename_i hr; cases h; exact .re hr
    · rename_i hr; cases h; exact .reMiss fun n hn => hr n hn
  | k + 1, d, .pat (.name nm), s, x, h => by
    simp only [run] at h
    split at h
    · rename_i y hy
      have h1 := List.mem_of_find?_eq_some hy
      have h2 := List.find?_some hy
      obtain ⟨a, b⟩ := y
      simp only [beq_iff_eq] at h2
      subst h2
      exact .name h1 (run_sound k d _ s x h)
    · cases h
  | k + 1, d, .pat (.alt l), s, x, h => .alt (run_sound k d _ s x h)
  | k + 1, d, .alts [], s, x, h => by cases h; exact .altsEnd
  | k + 1, d, .alts (p :: l), s, x, h => by
    simp only [run] at h
    split at h
    · rename_i h1; cases h; exact .altsHit (run_sound k d _ s _ h1)
    · rename_i h1; exact .altsMiss (run_sound k d _ s _ h1) (run_sound k d _ s _ h)
    · cases h
  | k + 1, d, .pat (.seq l), s, x, h => .seq (run_sound k d _ s x h)
  | k + 1, d, .seq [], s, x, h => by cases h; exact .seqEnd
  | k + 1, d, .seq (p :: l), s, x, h => by
    simp only [run] at h
    split at h
    · rename_i h1; exact .seqNext (run_sound k d _ s _ h1) (run_sound k d _ _ _ h)
    · rename_i h1; cases h; exact .seqMiss (run_sound k d _ s _ h1)
    · cases h
  | k + 1, d, .pat (.opt p), s, x, h => by
    simp only [run] at h
    split at h
    · rename_i h1; cases h; exact .opt (run_sound k d _ s _ h1)
    · rename_i h1; cases h; exact .optMiss (run_sound k d _ s _ h1)
    · cases h
  | k + 1, d, .pat (.not p), s, x, h => by
    simp only [run] at h
    split at h
    · rename_i h1; cases h; exact .not (run_sound k d _ s _ h1)
    · rename_i h1; cases h; exact .notMiss (run_sound k d _ s _ h1)
    · cases h
  | k + 1, d, .pat (.look p), s, x, h => by
    simp only [run] at h
    split at h
    · rename_i h1; cases h; exact .look (run_sound k d _ s _ h1)
    · rename_i h1; cases h; exact .lookMiss (run_sound k d _ s _ h1)
    · cases h
  | k + 1, d, .pat (.rep v sep mn mx), s, x, h => by
    simp only [run] at h
    split at h
    · rename_i h1; exact .rep (run_sound k d _ s _ h1) (run_sound k d _ _ _ h)
    · rename_i h1; cases h; exact .rep0 (run_sound k d _ s _ h1)
    · cases h
  | k + 1, d, .sep none, s, x, h => by cases h; exact .sepNone
  | k + 1, d, .sep (some p), s, x, h => .sepSome (run_sound k d _ s x h)
  | k + 1, d, .more v sep mn mx n, s, x, h => by
    simp only [run] at h
    split at h
    · rename_i hr
      have hr := (roomB_spec mx n).mp hr
      split at h
      · rename_i h1
        split at h
        · rename_i h2; exact .more hr (run_sound k d _ s _ h1) (run_sound k d _ _ _ h2) (run_sound k d _ _ _ h)
        · rename_i h2; cases h; exact .noMore hr (run_sound k d _ s _ h1) (run_sound k d _ _ _ h2)
        · cases h
      · rename_i h1; cases h; exact .noSep hr (run_sound k d _ s _ h1)
      · cases h
    · rename_i hr
      cases h
      exact .full fun h' => hr ((roomB_spec mx n).mpr h')
  | k + 1, d + 1, .body (.text e), s, x, h => .text (run_sound k d _ s x h)
  | k + 1, d + 1, .body (.rank ls), s, x, h => .rank (run_sound k d _ s x h)
  | k + 1, 0, .body (.text e), s, x, h => by cases h
  | k + 1, 0, .body (.rank ls), s, x, h => by cases h
  | k + 1, d, .lines [], s, x, h => by cases h; exact .linesEnd
  | k + 1, d, .lines (.incl _ _ _ :: ls), s, x, h => .incl (run_sound k d _ s x h)
  | k + 1, d, .lines (.alt _ _ b :: ls), s, x, h => by
    simp only [run] at h
    split at h
    · rename_i h1; cases h; exact .altHit (run_sound k d _ s _ h1)
    · rename_i h1; exact .altMiss (run_sound k d _ s _ h1) (run_sound k d _ s _ h)
    · cases h

end Joeson.RuleText
