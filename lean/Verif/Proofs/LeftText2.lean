import Verif.Spec.LeftText
import Verif.Proofs.Lang6
/-!
# Computing the values of a text, with left recursion

An executable version of `YieldsL`, for examples.
-/

namespace Joeson.RuleText

variable {V : Type}

/-- `Exceeds` as a function. -/
def exceedsB : Option (V × Bytes) → Option (V × Bytes) → Bool
  | _, none => false
  | none, some _ => true
  | some (_, s), some (_, s') => decide (s'.length < s.length)

theorem exceedsB_iff (x y : Option (V × Bytes)) : exceedsB x y = true ↔ Exceeds x y := by
  match x, y with
  | none, none => simp [exceedsB, Exceeds]
  | some _, none => simp [exceedsB, Exceeds]
  | none, some _ => simp [exceedsB, Exceeds]
  | some (_, s), some (_, s') => simp [exceedsB, Exceeds]

/-- Try again as long as the match gets longer. -/
def growRun (f : Option (V × Bytes) → Option (VRes V)) : Nat → Option (V × Bytes) → Option (VRes V)
  | 0, _ => none
  | m + 1, x => match f x with
    | none => none
    | some (.error e) => some (.error e)
    | some (.ok y) => if exceedsB x y then growRun f m y else some (.ok x)

/-- The sequence that starts with `a` and goes on as `x`. -/
def startWith {α : Type} (a : α) (x : Nat → α) : Nat → α
  | 0 => a
  | i + 1 => x i

theorem growRun_sound (f : Option (V × Bytes) → Option (VRes V)) : ∀ (m : Nat) (x0 : Option (V × Bytes)) {r : VRes V}, growRun f m x0 = some r →
    ∃ (n : Nat) (x : Nat → Option (V × Bytes)), x 0 = x0 ∧ (∀ i < n, Exceeds (x i) (x (i + 1))) ∧
      ((r = .ok (x n) ∧ ¬ Exceeds (x n) (x (n + 1)) ∧ ∀ i ≤ n, f (x i) = some (.ok (x (i + 1)))) ∨
       ∃ e, r = .error e ∧ (∀ i < n, f (x i) = some (.ok (x (i + 1)))) ∧ f (x n) = some (.error e))
  | 0, _, _, h => by cases h
  | m + 1, x0, r, h => by
    simp only [growRun] at h
    split at h
    · cases h
    · rename_i e he
      cases h
      exact ⟨0, fun _ => x0, rfl, fun i hi => absurd hi (Nat.not_lt_zero _), .inr ⟨e, rfl, fun i hi => absurd hi (Nat.not_lt_zero _), he⟩⟩
    · rename_i y hy
      split at h
      · rename_i hx
        obtain ⟨n, x, h0, hg, h1⟩ := growRun_sound f m y h
        refine ⟨n + 1, startWith x0 x, rfl, ?_, ?_⟩
        · intro i hi
          match i with
          | 0 => rw [show startWith x0 x 1 = x 0 from rfl, h0]; exact (exceedsB_iff _ _).mp hx
          | i + 1 => exact hg i (by omega)
        · have hstep : ∀ i, i ≤ n + 1 → (∀ j, j + 1 ≤ i → f (x j) = some (.ok (x (j + 1)))) → ∀ j ≤ i, f (startWith x0 x j) = some (.ok (startWith x0 x (j + 1))) := by
            intro i hi hj j hji
            match j with
            | 0 => rw [show startWith x0 x 1 = x 0 from rfl, h0]; exact hy
            | j + 1 => exact hj j (by omega)
          rcases h1 with ⟨rfl, h1, h2⟩ | ⟨e, rfl, h1, h2⟩
          · exact .inl ⟨rfl, h1, hstep (n + 1) (Nat.le_refl _) fun j hj => h2 j (by omega)⟩
          · refine .inr ⟨e, rfl, fun i hi => hstep n (by omega) (fun j hj => h1 j (by omega)) i (by omega), h2⟩
      · rename_i hx
        cases h
        refine ⟨0, startWith x0 fun _ => y, rfl, fun i hi => absurd hi (Nat.not_lt_zero _), .inl ⟨rfl, fun h => hx ((exceedsB_iff _ _).mpr h), ?_⟩⟩
        intro i hi
        have : i = 0 := by omega
        subst this
        exact hy

variable (P : PureOps V) (N : Nat) (L : List GLine)

/-- The rules as a function. `none`: `k` steps, or `d` nested rules, were not enough. -/
def lrun : Nat → Around V → Nat → LJob V → Bytes → Option (VRes V)
  | 0, _, _, _, _ => none
  | k + 1, c, d, j, s =>
    match j with
    | .part h p => match lrun k c d (.core h p) s with
      | some r => some (own P h p r)
      | none => none
    | .core _ (.lit _ b) => match after b s with
      | some s' => some (.ok (some (P.str b, s')))
      | none => some (.ok none)
    | .core _ (.re _ r) => match r.find s with
      | some (0, n) => some (.ok (some (P.str (s.take n), s.drop n)))
      | _ => some (.ok none)
    | .core _ (.name _ nm _) =>
      let call := match (rulesOf L).find? (·.1 == nm) with
        | some x => if nm ∈ mentionsIn L then lrun k c d (.rule nm x.2.1 x.2.2) s else none
        | none => none
      match c with
      | some (nm', s', x) => if nm' = nm ∧ s' = s then match d with
          | _ + 1 => some (.ok x)
          | 0 => none
        else call
      | none => call
    | .core _ (.alt _ l) => lrun k c d (.alts l) s
    | .alts [] => some (.ok none)
    | .alts (p :: l) => match lrun k c d (.part false p) s with
      | some (.ok (some x)) => some (.ok (some x))
      | some (.error e) => some (.error e)
      | some (.ok none) => lrun k c d (.alts l) s
      | none => none
    | .core _ (.seq _ l) => lrun k c d (.items (formOf l) l []) s
    | .items f [] acc => match gather P f acc with
      | .ok v => some (.ok (some (v, s)))
      | .error _ => none
    | .items f (p :: l) acc => match lrun k c d (.part true p) s with
      | some (.ok none) => some (.ok none)
      | some (.error e) => some (.error e)
      | some (.ok (some (v, s'))) => match gather P f (acc ++ [(p, v)]) with
        | .ok _ => lrun k c d (.items f l (acc ++ [(p, v)])) s'
        | .error e => some (.error e)
      | none => none
    | .core h (.opt _ p) => match lrun k c d (.part h p) s with
      | some (.ok (some x)) => some (.ok (some x))
      | some (.error e) => some (.error e)
      | some (.ok none) => some (.ok (some (P.undef, s)))
      | none => none
    | .core _ (.not _ p) => match lrun k c d (.part false p) s with
      | some (.ok (some _)) => some (.ok none)
      | some (.error e) => some (.error e)
      | some (.ok none) => some (.ok (some (P.undef, s)))
      | none => none
    | .core _ (.look _ p) => match lrun k c d (.part false p) s with
      | some (.ok (some (v, _))) => some (.ok (some (v, s)))
      | some (.error e) => some (.error e)
      | some (.ok none) => some (.ok none)
      | none => none
    | .core _ (.rep _ v sep mn mx) => match lrun k c d (.part false v) s with
      | some (.ok (some (x, s'))) => lrun k c d (.more v sep mn mx [x]) s'
      | some (.error e) => some (.error e)
      | some (.ok none) => some (vstop P mn [] s)
      | none => none
    | .sep none => some (.ok (some (P.undef, s)))
    | .sep (some p) => lrun k c d (.part false p) s
    | .more v sep mn mx vs =>
      if roomB mx vs.length then
        match lrun k c d (.sep sep) s with
        | some (.ok (some (_, s'))) => match lrun k c d (.part false v) s' with
          | some (.ok (some (x, s''))) => lrun k c d (.more v sep mn mx (vs ++ [x])) s''
          | some (.error e) => some (.error e)
          | some (.ok none) => some (vstop P mn vs s)
          | none => none
        | some (.error e) => some (.error e)
        | some (.ok none) => some (vstop P mn vs s)
        | none => none
      else some (vstop P mn vs s)
    | .rule nm cb b =>
      if nm = "" ∨ nm ∉ mentionsIn L then lrun k c d (.body cb b) s
      else growRun (fun x => lrun k (some (nm, s, x)) d (.body cb b) s) k none
    | .body cb (.text e) => match d with
      | d + 1 => match lrun k c d (.part false e.vp) s with
        | some r => some (called P N cb r)
        | none => none
      | 0 => none
    | .body cb (.rank ls) => match d with
      | d + 1 => match lrun k c d (.lines ls) s with
        | some r => some (called P N cb r)
        | none => none
      | 0 => none
    | .lines [] => some (.ok none)
    | .lines (.incl _ _ _ :: ls) => lrun k c d (.lines ls) s
    | .lines (.alt nm cb b :: ls) => match lrun k c d (.rule nm cb b) s with
      | some (.ok (some x)) => some (.ok (some x))
      | some (.error e) => some (.error e)
      | some (.ok none) => lrun k c d (.lines ls) s
      | none => none

variable {P N L}

theorem lrun_sound : ∀ (k : Nat) (c : Around V) (d : Nat) (j : LJob V) (s : Bytes) (r : VRes V), lrun P N L k c d j s = some r → YieldsL P N L c d j s r
  | 0, _, _, _, _, _, h => by cases h
  | k + 1, c, d, .part a p, s, r, h => by
    simp only [lrun] at h
    split at h
    · rename_i h1; cases h; exact .part (lrun_sound k c d _ s _ h1)
    · cases h
  | k + 1, c, d, .core a (.lit lab b), s, r, h => by
    simp only [lrun] at h
    have := after_spec b s
    split at h <;> rename_i h1 <;> rw [h1] at this <;> cases h
    · dsimp only at this; subst this; exact .lit
    · exact .litMiss this
  | k + 1, c, d, .core a (.re lab re), s, r, h => by
    simp only [lrun] at h
    split at h
    · rename_i hr; cases h; exact .re hr
    · rename_i hr; cases h; exact .reMiss fun n hn => hr n hn
  | k + 1, c, d, .core a (.name lab nm q), s, r, h => by
    have hcall : (match (rulesOf L).find? (·.1 == nm) with
        | some x => if nm ∈ mentionsIn L then lrun P N L k c d (.rule nm x.2.1 x.2.2) s else none
        | none => none) = some r → nm ∈ mentionsIn L ∧ ∃ cb b, (nm, cb, b) ∈ rulesOf L ∧ YieldsL P N L c d (.rule nm cb b) s r := by
      intro h
      split at h
      · rename_i y hy
        have h1 := List.mem_of_find?_eq_some hy
        have h2 := List.find?_some hy
        obtain ⟨x, c', b⟩ := y
        simp only [beq_iff_eq] at h2
        subst h2
        split at h
        · exact ⟨‹_›, c', b, h1, lrun_sound k c d _ s r h⟩
        · cases h
      · cases h
    match c, d, h, hcall with
    | none, d, h, hcall =>
      simp only [lrun] at h
      obtain ⟨hmem, cb, b, h1, h2⟩ := hcall h
      exact .name (fun x h => by cases h) hmem h1 h2
    | some (nm', s', x), d, h', hcall' =>
      simp only [lrun] at h'
      split at h'
      · rename_i he
        obtain ⟨rfl, rfl⟩ := he
        split at h'
        · cases h'
          exact .again rfl
        · cases h'
      · rename_i he
        obtain ⟨hmem, cb, b, h1, h2⟩ := hcall' h'
        refine .name (fun x h => ?_) hmem h1 h2
        cases h
        exact he ⟨rfl, rfl⟩
  | k + 1, c, d, .core a (.alt lab l), s, r, h => .alt (lrun_sound k c d _ s r h)
  | k + 1, c, d, .alts [], s, r, h => by cases h; exact .altsEnd
  | k + 1, c, d, .alts (p :: l), s, r, h => by
    simp only [lrun] at h
    split at h
    · rename_i h1; cases h; exact .altsDone (lrun_sound k c d _ s _ h1) (by simp)
    · rename_i h1; cases h; exact .altsDone (lrun_sound k c d _ s _ h1) (by simp)
    · rename_i h1; exact .altsMiss (lrun_sound k c d _ s _ h1) (lrun_sound k c d _ s _ h)
    · cases h
  | k + 1, c, d, .core a (.seq lab l), s, r, h => .seq (lrun_sound k c d _ s r h)
  | k + 1, c, d, .items f [] acc, s, r, h => by
    simp only [lrun] at h
    split at h
    · rename_i h1; cases h; exact .itemsEnd h1
    · cases h
  | k + 1, c, d, .items f (p :: l) acc, s, r, h => by
    simp only [lrun] at h
    split at h
    · rename_i h1; cases h; exact .itemsMiss (lrun_sound k c d _ s _ h1)
    · rename_i h1; cases h; exact .itemsPanic (lrun_sound k c d _ s _ h1)
    · rename_i h1
      split at h
      · rename_i h2; exact .itemsPut (lrun_sound k c d _ s _ h1) h2 (lrun_sound k c d _ _ _ h)
      · rename_i h2; cases h; exact .itemsBad (lrun_sound k c d _ s _ h1) h2
    · cases h
  | k + 1, c, d, .core a (.opt lab p), s, r, h => by
    simp only [lrun] at h
    split at h
    · rename_i h1; cases h; exact .optDone (lrun_sound k c d _ s _ h1) (by simp)
    · rename_i h1; cases h; exact .optDone (lrun_sound k c d _ s _ h1) (by simp)
    · rename_i h1; cases h; exact .optMiss (lrun_sound k c d _ s _ h1)
    · cases h
  | k + 1, c, d, .core a (.not lab p), s, r, h => by
    simp only [lrun] at h
    split at h
    · rename_i h1; cases h; exact .notHit (lrun_sound k c d _ s _ h1)
    · rename_i h1; cases h; exact .notPanic (lrun_sound k c d _ s _ h1)
    · rename_i h1; cases h; exact .notMiss (lrun_sound k c d _ s _ h1)
    · cases h
  | k + 1, c, d, .core a (.look lab p), s, r, h => by
    simp only [lrun] at h
    split at h
    · rename_i h1; cases h; exact .lookHit (lrun_sound k c d _ s _ h1)
    · rename_i h1; cases h; exact .lookPanic (lrun_sound k c d _ s _ h1)
    · rename_i h1; cases h; exact .lookMiss (lrun_sound k c d _ s _ h1)
    · cases h
  | k + 1, c, d, .core a (.rep lab v sep mn mx), s, r, h => by
    simp only [lrun] at h
    split at h
    · rename_i h1; exact .rep (lrun_sound k c d _ s _ h1) (lrun_sound k c d _ _ _ h)
    · rename_i h1; cases h; exact .repPanic (lrun_sound k c d _ s _ h1)
    · rename_i h1; cases h; exact .repMiss (lrun_sound k c d _ s _ h1)
    · cases h
  | k + 1, c, d, .sep none, s, r, h => by cases h; exact .sepNone
  | k + 1, c, d, .sep (some p), s, r, h => .sepSome (lrun_sound k c d _ s r h)
  | k + 1, c, d, .more v sep mn mx vs, s, r, h => by
    simp only [lrun] at h
    split at h
    · rename_i hr
      have hr := (roomB_spec mx vs.length).mp hr
      split at h
      · rename_i h1
        split at h
        · rename_i h2; exact .more hr (lrun_sound k c d _ s _ h1) (lrun_sound k c d _ _ _ h2) (lrun_sound k c d _ _ _ h)
        · rename_i h2; cases h; exact .morePanic hr (lrun_sound k c d _ s _ h1) (lrun_sound k c d _ _ _ h2)
        · rename_i h2; cases h; exact .noMore hr (lrun_sound k c d _ s _ h1) (lrun_sound k c d _ _ _ h2)
        · cases h
      · rename_i h1; cases h; exact .sepPanic hr (lrun_sound k c d _ s _ h1)
      · rename_i h1; cases h; exact .noSep hr (lrun_sound k c d _ s _ h1)
      · cases h
    · rename_i hr
      cases h
      exact .full fun h' => hr ((roomB_spec mx vs.length).mpr h')
  | k + 1, c, d, .rule nm cb b, s, r, h => by
    simp only [lrun] at h
    split at h
    · rename_i he
      exact .inside he (lrun_sound k c d _ s r h)
    · rename_i he0
      have he : nm ≠ "" := fun h => he0 (.inl h)
      have hmem : nm ∈ mentionsIn L := Decidable.of_not_not fun h => he0 (.inr h)
      obtain ⟨n, x, h0, hg, h1 | ⟨e, rfl, h1, h2⟩⟩ := growRun_sound _ k none h
      · obtain ⟨rfl, h1, h2⟩ := h1
        exact .grown x he hmem h0 hg h1 fun i hi => lrun_sound k _ d _ s _ (h2 i hi)
      · exact .grownPanic x he hmem h0 hg (fun i hi => lrun_sound k _ d _ s _ (h1 i hi)) (lrun_sound k _ d _ s _ h2)
  | k + 1, c, d + 1, .body cb (.text e), s, r, h => by
    simp only [lrun] at h
    split at h
    · rename_i h1; cases h; exact .text (lrun_sound k c d _ s _ h1)
    · cases h
  | k + 1, c, d + 1, .body cb (.rank ls), s, r, h => by
    simp only [lrun] at h
    split at h
    · rename_i h1; cases h; exact .rank (lrun_sound k c d _ s _ h1)
    · cases h
  | k + 1, c, 0, .body cb (.text e), s, r, h => by cases h
  | k + 1, c, 0, .body cb (.rank ls), s, r, h => by cases h
  | k + 1, c, d, .lines [], s, r, h => by cases h; exact .linesEnd
  | k + 1, c, d, .lines (.incl _ _ _ :: ls), s, r, h => .incl (lrun_sound k c d _ s r h)
  | k + 1, c, d, .lines (.alt nm cb b :: ls), s, r, h => by
    simp only [lrun] at h
    split at h
    · rename_i h1; cases h; exact .altDone (lrun_sound k c d _ s _ h1) (by simp)
    · rename_i h1; cases h; exact .altDone (lrun_sound k c d _ s _ h1) (by simp)
    · rename_i h1; exact .altMiss (lrun_sound k c d _ s _ h1) (lrun_sound k c d _ s _ h)
    · cases h

end Joeson.RuleText
