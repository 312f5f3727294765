import Verif.Proofs.Peg
/-!
# Simulation of the operators, for any state relation

`o0` is a second, less defined answer of the evaluator: where it has none, the engine must have hit
something (`Hit`). It is used to recognise left recursion.
-/

namespace Joeson
variable {V H : Type}

/-- What the operators need to know: `M` is the invariant, `N` relates the states before and after a
parser, `q` is where the enclosing rule starts. -/
structure SimSetup (env : Env V H) (M : St V H → Prop) (N : St V H → St V H → Prop) (Hit : St V H → Prop) : Prop where
  refl : ∀ s, N s s
  trans : ∀ {s t u}, N s t → N t u → N s u
  reset : ∀ {s s' p}, M s → N s s' → s.pos ≤ p → p ≤ env.st.len → N s { s' with pos := p }
  aux : ∀ s n h l, N s { s with counter := n, h := h, calls := l }
  keep : ∀ {s s'}, M s → N s s' → M s'
  pos : ∀ {s}, M s → s.pos ≤ env.st.len
  hit : ∀ {s s'}, M s → Hit s → N s s' → Hit s'
  hitPos : ∀ {s p}, Hit s → Hit { s with pos := p }

/-- The engine does what the evaluator says; it hits when the less defined evaluator gives up, or when
it already had (`h`). -/
def SimT (B : Prop) (P : St V H → Prop) (Hit : St V H → Prop) (h : Prop)
    (o0 o : Out (Option (V × Nat))) (x : Out (Option V × St V H)) : Prop :=
  SimR B (fun s' => P s' ∧ (o0 = .oof ∨ h → Hit s')) o x

section
variable {env : Env V H} {B : Prop} {M : St V H → Prop} {N : St V H → St V H → Prop} {Hit : St V H → Prop}
  {Okn : Node → Prop} {rec_ : Node → Run V H} {ev0 ev : Node → Nat → Out (Option (V × Nat))}

theorem SimT.fail {P : St V H → Prop} {s' : St V H} {h : Prop} (hn : P s') (hh : h → Hit s') :
    SimT B P Hit h (.ok none) (.ok none) (.ok (none, s')) :=
  SimR.fail ⟨hn, fun x => x.elim (fun x => by cases x) hh⟩

theorem SimT.val {P : St V H → Prop} {s' : St V H} {h : Prop} {v : V} {p : Nat} (hp : s'.pos = p) (hn : P s')
    (hh : h → Hit s') : SimT B P Hit h (.ok (some (v, p))) (.ok (some (v, p))) (.ok (some v, s')) :=
  SimR.val hp ⟨hn, fun x => x.elim (fun x => by cases x) hh⟩

theorem SimT.panic {P : St V H → Prop} {h : Prop} {e : Panic} :
    SimT B P Hit h (.panic e) (.panic e) (.panic e) := SimR.panic

theorem SimT.of_next (S : SimSetup env M N Hit) {s t : St V H} {h : Prop} {o0 o : Out (Option (V × Nat))}
    {x : Out (Option V × St V H)} (hn : N s t) (hx : SimT B (N t) Hit h o0 o x) : SimT B (N s) Hit h o0 o x :=
  SimR.imp hx fun _ h => ⟨S.trans hn h.1, h.2⟩

theorem SimT.bind {P Q : St V H → Prop} {h : Prop} {o0 o : Out (Option (V × Nat))} {x : Out (Option V × St V H)}
    {f : Option V × St V H → Out (Option V × St V H)} {g0 g : Option (V × Nat) → Out (Option (V × Nat))}
    (hx : SimT B P Hit h o0 o x) (hle : Out.le o0 o)
    (hn : ∀ s' h', P s' → (h' → Hit s') → SimT B Q Hit h' (g0 none) (g none) (f (none, s')))
    (hs : ∀ v s' h', P s' → (h' → Hit s') →
      SimT B Q Hit h' (g0 (some (v, s'.pos))) (g (some (v, s'.pos))) (f (some v, s'))) :
    SimT B Q Hit h (o0 >>= g0) (o >>= g) (x >>= f) := by
  by_cases ho : o = .oof
  · subst ho; exact SimR.oof
  rcases hx.cases ho with ⟨hB, h'⟩ | ⟨e, rfl, h'⟩ | ⟨r, s', h1, h2, h3, h4⟩
  · rw [h']; exact Or.inl ⟨hB, rfl⟩
  · rw [h']; exact SimR.panic
  · rw [h1, h2, Out.bind_ok, Out.bind_ok]
    rcases hle with h0 | h0
    · subst h0
      have hh : Hit s' := h4 (Or.inl rfl)
      cases r with
      | none => exact SimR.imp (hn s' True h3 fun _ => hh) fun t ht => ⟨ht.1, fun _ => ht.2 (Or.inr trivial)⟩
      | some v => exact SimR.imp (hs v s' True h3 fun _ => hh) fun t ht => ⟨ht.1, fun _ => ht.2 (Or.inr trivial)⟩
    · subst h0
      rw [h2, Out.bind_ok]
      cases r with
      | none => exact hn s' h h3 fun x => h4 (Or.inr x)
      | some v => exact hs v s' h h3 fun x => h4 (Or.inr x)

/-- Assumption on the recursive calls. -/
def RecSimT (B : Prop) (M : St V H → Prop) (N : St V H → St V H → Prop) (Hit : St V H → Prop) (Okn : Node → Prop)
    (rec_ : Node → Run V H) (ev0 ev : Node → Nat → Out (Option (V × Nat))) : Prop :=
  ∀ n s, Okn n → M s → SimT B (N s) Hit False (ev0 n s.pos) (ev n s.pos) (rec_ n s)

theorem SimT.with (S : SimSetup env M N Hit) {s : St V H} {h : Prop} {o0 o : Out (Option (V × Nat))}
    {x : Out (Option V × St V H)} (hm : M s) (hh : h → Hit s) (hx : SimT B (N s) Hit False o0 o x) :
    SimT B (N s) Hit h o0 o x :=
  SimR.imp hx fun _ ht => ⟨ht.1, fun hc => hc.elim (fun hc => ht.2 (Or.inl hc)) fun hc => S.hit hm (hh hc) ht.1⟩

theorem alts_simT (S : SimSetup env M N Hit) (hle : ∀ n p, Out.le (ev0 n p) (ev n p))
    (hr : RecSimT B M N Hit Okn rec_ ev0 ev) : ∀ (l : List Node) (s : St V H) (h : Prop), (∀ c ∈ l, Okn c) → M s →
    (h → Hit s) → SimT B (N s) Hit h (pegChoice ev0 l s.pos) (pegChoice ev l s.pos) (parseAlts env rec_ l s)
  | [], s, h, _, _, hh => SimT.fail (S.refl s) hh
  | c :: cs, s, h, hl, hm, hh => by
    rw [pegChoice, pegChoice, parseAlts]
    refine SimT.bind ((hr c s (hl c (by simp)) hm).with S hm hh) (hle _ _) (fun s' h' hn hh' => ?_)
      (fun v s' h' hn hh' => SimT.val rfl hn hh')
    dsimp only
    rw [setPos_eq env (S.pos hm), Out.bind_ok]
    have hn' := S.reset hm hn (Nat.le_refl _) (S.pos hm)
    exact SimT.of_next S hn' (alts_simT S hle hr cs { s' with pos := s.pos } h' (fun c hc => hl c (by simp [hc]))
      (S.keep hm hn') fun x => S.hitPos (hh' x))

theorem items_simT {E : PegEnv V} (hops : env.ops = E.P.ops H) (hg : env.g = E.g) (S : SimSetup env M N Hit)
    (hle : ∀ n p, Out.le (ev0 n p) (ev n p)) (hr : RecSimT B M N Hit Okn rec_ ev0 ev) (repr : SeqRepr) :
    ∀ (l : List Node) (acc : SeqAcc V) (w : SeqVal V) (s : St V H) (h : Prop), AccRel repr acc w → (∀ c ∈ l, Okn c) →
    M s → (h → Hit s) → SimT B (N s) Hit h (pegSeq E ev0 repr l w s.pos) (pegSeq E ev repr l w s.pos)
      (parseItems env rec_ repr l acc s)
  | [], acc, w, s, h, ha, _, _, hh => by
    rw [pegSeq, pegSeq, parseItems]
    have : seqDone env.ops repr acc s.h = (seqValue E.P repr w, s.h) := by
      rw [hops]
      cases repr <;> unfold AccRel at ha <;> dsimp only at ha <;> simp only [seqDone, ha] <;> cases w <;> rfl
    rw [this]
    exact SimT.val rfl (S.refl s) hh
  | c :: cs, acc, w, s, h, ha, hl, hm, hh => by
    rw [pegSeq, pegSeq, parseItems]
    refine SimT.bind ((hr c s (hl c (by simp)) hm).with S hm hh) (hle _ _) (fun s' h' hn hh' => SimT.fail hn hh')
      (fun v s' h' hn hh' => ?_)
    dsimp only
    have h5 := seqPut_sim E.P repr (env.g.info c) ha v s'.h
    rw [← hg, hops]
    cases hp : seqPut E.P repr (env.g.info c) w v with
    | error e => rw [hp] at h5; dsimp only at h5; rw [h5]; exact SimT.panic
    | ok w' =>
      rw [hp] at h5
      obtain ⟨acc', h6, h7⟩ := h5
      rw [h6, Out.ofExcept_ok, Out.bind_ok, Out.ofExcept_ok, Out.bind_ok, Out.bind_ok]
      exact SimT.of_next S hn (items_simT hops hg S hle hr repr cs acc' w' s' h' h7
        (fun c hc => hl c (by simp [hc])) (S.keep hm hn) hh')

theorem rep_simT {E : PegEnv V} (hops : env.ops = E.P.ops H) (S : SimSetup env M N Hit)
    (hle : ∀ n p, Out.le (ev0 n p) (ev n p)) (hr : RecSimT B M N Hit Okn rec_ ev0 ev) {value : Node}
    {join : Option Node} {mn mx : Int} {s0 : St V H} (hv : Okn value) (hj : ∀ j, join = some j → Okn j)
    (hm0 : M s0) : ∀ (n : Nat) (ms : List V) (s : St V H) (h : Prop), N s0 s → (h → Hit s) →
    SimT B (N s0) Hit h (pegMore ev0 value join mx n ms s.pos >>= fun y =>
        if mn > y.1.length then .ok none else .ok (some (E.P.arr y.1, y.2)))
      (pegMore ev value join mx n ms s.pos >>= fun y =>
        if mn > y.1.length then .ok none else .ok (some (E.P.arr y.1, y.2)))
      (parseRep env rec_ value join mn mx s0.pos n ms s)
  | 0, _, _, _, _, _ => SimR.oof
  | n + 1, ms, s, h, hn, hh => by
    have hm := S.keep hm0 hn
    unfold parseRep
    extract_lets pos2 finish
    unfold pegMore
    have harr : ∀ (t : St V H) (l : List V) (h' : Prop), N s0 t → (h' → Hit t) → SimT B (N s0) Hit h'
        (.ok (some (E.P.arr l, t.pos))) (.ok (some (E.P.arr l, t.pos)))
        (.ok (some (env.ops.arr l t.h).1, { t with h := (env.ops.arr l t.h).2 })) := by
      intro t l h' hst hht
      rw [hops]
      exact SimT.val rfl hst hht
    have stop : ∀ (t : St V H) (h' : Prop), N s t → (h' → Hit t) → SimT B (N s0) Hit h'
        (if mn > ms.length then .ok none else .ok (some (E.P.arr ms, s.pos)))
        (if mn > ms.length then .ok none else .ok (some (E.P.arr ms, s.pos)))
        (setPos env pos2 t >>= finish) := by
      intro t h' hst hht
      rw [setPos_eq env (S.pos hm), Out.bind_ok]
      have hn2 := S.trans hn (S.reset hm hst (Nat.le_refl _) (S.pos hm))
      simp only [finish]
      by_cases hc : mn > (ms.length : Int)
      · rw [if_pos hc, if_pos (by omega), setPos_eq env (S.pos hm0), Out.bind_ok]
        exact SimT.fail (S.reset hm0 hn2 (Nat.le_refl _) (S.pos hm0)) fun x => S.hitPos (S.hitPos (hht x))
      · rw [if_neg hc, if_neg (by omega)]
        exact harr { t with pos := s.pos } ms h' hn2 fun x => S.hitPos (hht x)
    have cont : ∀ (t : St V H) (h' : Prop), N s t → (h' → Hit t) → SimT B (N s0) Hit h'
        ((do
          match ← ev0 value t.pos with
          | none => .ok (ms, s.pos)
          | some (v, q) =>
            if 0 ≤ mx ∧ mx ≤ (ms ++ [v]).length then .ok (ms ++ [v], q)
            else pegMore ev0 value join mx n (ms ++ [v]) q) >>= fun y =>
          if mn > y.1.length then .ok none else .ok (some (E.P.arr y.1, y.2)))
        ((do
          match ← ev value t.pos with
          | none => .ok (ms, s.pos)
          | some (v, q) =>
            if 0 ≤ mx ∧ mx ≤ (ms ++ [v]).length then .ok (ms ++ [v], q)
            else pegMore ev value join mx n (ms ++ [v]) q) >>= fun y =>
          if mn > y.1.length then .ok none else .ok (some (E.P.arr y.1, y.2)))
        (do
          let (r, s) ← rec_ value t
          match r with
          | none => do
            let s ← setPos env pos2 s
            finish s
          | some v =>
            let ms' := ms ++ [v]
            if mx > -1 ∧ (ms'.length : Int) ≥ mx then
              if mn > -1 ∧ mn > (ms'.length : Int) then do
                let s ← setPos env s0.pos s
                .ok (none, s)
              else
                let (v, h) := env.ops.arr ms' s.h
                .ok (some v, { s with h := h })
            else parseRep env rec_ value join mn mx s0.pos n ms' s) := by
      intro t h' hst hht
      have hmt := S.keep hm hst
      rw [Out.bind_assoc, Out.bind_assoc]
      refine SimT.bind ((hr value t hv hmt).with S hmt hht) (hle _ _) (fun s' h'' h3 hh'' => ?_)
        (fun v s' h'' h3 hh'' => ?_)
      · exact stop s' h'' (S.trans hst h3) hh''
      · have hns := S.trans hn (S.trans hst h3)
        dsimp only
        by_cases hc : 0 ≤ mx ∧ mx ≤ ((ms ++ [v]).length : Int)
        · rw [if_pos hc, if_pos hc, if_pos ⟨by omega, hc.2⟩, Out.bind_ok]
          dsimp only
          by_cases hd : mn > ((ms ++ [v]).length : Int)
          · rw [if_pos hd, if_pos ⟨by omega, hd⟩, setPos_eq env (S.pos hm0), Out.bind_ok]
            exact SimT.fail (S.reset hm0 hns (Nat.le_refl _) (S.pos hm0)) fun x => S.hitPos (hh'' x)
          · rw [if_neg hd, if_neg (fun h => hd h.2)]
            exact harr s' (ms ++ [v]) h'' hns hh''
        · rw [if_neg hc, if_neg hc, if_neg (fun h => hc ⟨by omega, h.2⟩)]
          exact rep_simT hops S hle hr hv hj hm0 n (ms ++ [v]) s' h'' hns hh''
    cases join with
    | none =>
      simp only [Out.bind_ok, Bool.not_true, Bool.false_eq_true, if_false]
      exact cont s h (S.refl s) hh
    | some j =>
      dsimp only
      rw [Out.bind_assoc, Out.bind_assoc, Out.bind_assoc, Out.bind_assoc, Out.bind_assoc]
      exact SimT.bind ((hr j s (hj j rfl) hm).with S hm hh) (hle _ _) (fun s' h'' h3 hh'' => stop s' h'' h3 hh'')
        (fun v s' h'' h3 hh'' => cont s' h'' h3 hh'')

theorem kind_simP {E : PegEnv V} {q k : Nat} {P : Node → Prop} (hops : env.ops = E.P.ops H) (hst : env.st = E.st)
    (hval : env.st.Valid) (hg : env.g = E.g) (href : ∀ i nm id, P (.ref i nm) → env.g.lookup nm = some id → P (.rule id))
    (S : SimSetup env M N Hit) (htop : ∀ {s}, M s → TopPos s q) (hle : ∀ n p, Out.le (ev0 n p) (ev n p))
    (hr : RecSimT B M N Hit (Node.All P) rec_ ev0 ev) (n : Node) (s : St V H)
    (h : Prop) (hn : n.All P) (hm : M s) (hh : h → Hit s) (hrule : ∀ id, n ≠ .rule id) :
    SimT B (N s) Hit h (pegKind E ev0 k n s.pos) (pegKind E ev k n s.pos) (parseKind env rec_ k n s) := by
  have back : ∀ {s' : St V H}, N s s' → N s { s' with pos := s.pos } :=
    fun h => S.reset hm h (Nat.le_refl _) (S.pos hm)
  cases n with
  | str i b =>
    rw [pegKind, pegKind, parseKind, ← hst]
    obtain ⟨r, p, h1, h2, h3, h4, h5⟩ := hval.string s.pos b (S.pos hm)
    rw [h1, Out.ofExcept_ok, Out.bind_ok, Out.bind_ok]
    dsimp only
    have hn := S.reset hm (S.refl s) h2 h3
    cases r with
    | none => exact SimT.fail hn fun x => S.hitPos (hh x)
    | some t => rw [hops]; exact SimT.val rfl hn fun x => S.hitPos (hh x)
  | regex i re =>
    rw [pegKind, pegKind, parseKind, ← hst]
    obtain ⟨r, p, h1, h2, h3, h4, h5⟩ := hval.regexp s.pos re (S.pos hm)
    rw [h1, Out.ofExcept_ok, Out.bind_ok, Out.bind_ok]
    dsimp only
    have hn := S.reset hm (S.refl s) h2 h3
    cases r with
    | none => exact SimT.fail hn fun x => S.hitPos (hh x)
    | some t => rw [hops]; exact SimT.val rfl hn fun x => S.hitPos (hh x)
  | choice i l =>
    cases hn with
    | choice _ hl => exact alts_simT S hle hr l s h hl hm hh
  | seq i repr l =>
    cases hn with
    | seq _ hl => exact items_simT hops hg S hle hr repr l {} .nothing s h (by cases repr <;> rfl) hl hm hh
  | exist i it =>
    cases hn with
    | exist _ hit =>
      rw [pegKind, pegKind, parseKind]
      refine SimT.bind ((hr it s hit hm).with S hm hh) (hle _ _) (fun s' h' h3 hh' => ?_)
        (fun v s' h' h3 hh' => SimT.val rfl h3 hh')
      dsimp only
      rw [setPos_eq env (S.pos hm), Out.bind_ok, hops]
      exact SimT.val rfl (back h3) fun x => S.hitPos (hh' x)
  | look i it =>
    cases hn with
    | look _ hit =>
      rw [pegKind, pegKind, parseKind]
      refine SimT.bind ((hr it s hit hm).with S hm hh) (hle _ _) (fun s' h' h3 hh' => ?_) (fun v s' h' h3 hh' => ?_)
      all_goals
        dsimp only
        rw [setPos_eq env (S.pos hm), Out.bind_ok]
      · exact SimT.fail (back h3) fun x => S.hitPos (hh' x)
      · exact SimT.val rfl (back h3) fun x => S.hitPos (hh' x)
  | not i it =>
    cases hn with
    | not _ hit =>
      rw [pegKind, pegKind, parseKind]
      refine SimT.bind ((hr it s hit hm).with S hm hh) (hle _ _) (fun s' h' h3 hh' => ?_) (fun v s' h' h3 hh' => ?_)
      all_goals
        dsimp only
        rw [setPos_eq env (S.pos hm), Out.bind_ok]
      · rw [hops]; exact SimT.val rfl (back h3) fun x => S.hitPos (hh' x)
      · exact SimT.fail (back h3) fun x => S.hitPos (hh' x)
  | pattern i value join mn mx =>
    cases hn with
    | pattern _ hv hj =>
      rw [pegKind, pegKind, parseKind]
      refine SimT.bind ((hr value s hv hm).with S hm hh) (hle _ _) (fun s' h' h3 hh' => ?_) (fun v s' h' h3 hh' => ?_)
      · dsimp only
        rw [setPos_eq env (S.pos hm), Out.bind_ok, hops]
        split
        · exact SimT.fail (back h3) fun x => S.hitPos (hh' x)
        · exact SimT.val rfl (back (s' := s') h3) fun x => S.hitPos (s := s') (hh' x)
      · exact rep_simT hops S hle hr hv hj hm k [v] s' h' h3 hh'
  | ref i nm =>
    rw [pegKind, pegKind, parseKind, ← hg]
    cases hl : env.g.lookup nm with
    | none => exact SimT.panic
    | some id =>
      obtain ⟨top, rest, h1, -⟩ := htop hm
      dsimp only
      rw [show stackPeek s = .ok top by simp [stackPeek, h1], Out.bind_ok]
      cases hn with
      | ref hp => exact (hr (.rule id) s (.rule (href i nm id hp hl)) hm).with S hm hh
  | rule id => exact absurd rfl (hrule id)

theorem kind_simT {E : PegEnv V} {q k : Nat} (hops : env.ops = E.P.ops H) (hst : env.st = E.st) (hval : env.st.Valid)
    (hg : env.g = E.g) (hwf : env.g.WfT (fun _ => False) True) (S : SimSetup env M N Hit)
    (htop : ∀ {s}, M s → TopPos s q) (hle : ∀ n p, Out.le (ev0 n p) (ev n p))
    (hr : RecSimT B M N Hit (Node.All (Node.Ok env.g (fun _ => False) True)) rec_ ev0 ev) (n : Node) (s : St V H)
    (h : Prop) (hn : n.All (Node.Ok env.g (fun _ => False) True)) (hm : M s) (hh : h → Hit s)
    (hrule : ∀ id, n ≠ .rule id) :
    SimT B (N s) Hit h (pegKind E ev0 k n s.pos) (pegKind E ev k n s.pos) (parseKind env rec_ k n s) :=
  kind_simP hops hst hval hg (fun _ nm id _ hl => ⟨hwf.lookup nm id hl, Or.inr trivial⟩) S htop hle hr n s h hn hm hh hrule

theorem prepare_simT {E : PegEnv V} {q : Nat} (hops : env.ops = E.P.ops H) (hst : env.st = E.st)
    (S : SimSetup env M N Hit) (htop : ∀ {s}, M s → TopPos s q) {ofRule : Bool} {i : Info}
    {f : Run V H} {s : St V H} {h : Prop} {o0 o : Out (Option (V × Nat))} (hm : M s) (hle : Out.le o0 o)
    (hf : SimT B (N s) Hit h o0 o (f { s with counter := s.counter + 1 })) :
    SimT B (N s) Hit h (o0 >>= pegFinish E i q) (o >>= pegFinish E i q) (prepareResult env ofRule i f s) := by
  unfold prepareResult
  dsimp only
  refine SimT.bind hf hle (fun s' h' hn hh' => SimT.fail hn hh') (fun v s' h' hn hh' => ?_)
  have hm' := S.keep hm hn
  obtain ⟨top, rest, hs, htop⟩ := htop hm'
  simp only [pegFinish]
  have hl : (if i.ownLabel = true then env.ops.newMap i.label v s'.h else (v, s'.h)) =
      (if i.ownLabel = true then E.P.newMap i.label v else v, s'.h) := by
    rw [hops]
    split <;> rfl
  rw [hl]
  dsimp only
  generalize (if i.ownLabel = true then E.P.newMap i.label v else v) = v'
  have haux : ∀ l, N s { s' with calls := l } := fun l => S.trans hn (S.aux s' s'.counter s'.h l)
  cases i.cb with
  | none =>
    have hp : ∀ x : H, stackPeek { s' with h := x } = .ok top := fun x => by simp [stackPeek, hs]
    rw [hp, Out.bind_ok]
    dsimp only [Out.bind_ok]
    rw [htop, hops, hst]
    exact SimT.val rfl hn hh'
  | some c =>
    dsimp only
    have hcb : env.ops.cb c v' s'.pos s'.h = (E.P.cb c v' s'.pos).map (·, s'.h) := by
      rw [hops]; rfl
    rw [hcb]
    have hit := fun l (x : h') => S.hit hm' (hh' x) (S.aux s' s'.counter s'.h l)
    cases hr : E.P.cb c v' s'.pos with
    | error e => exact SimT.panic
    | ok r =>
      rw [Out.ofExcept_ok, Out.bind_ok]
      cases r with
      | none => exact SimT.fail (haux _) (hit _)
      | some w =>
        dsimp only [Except.map, Out.ofExcept_ok, Out.bind_ok]
        have hp : ∀ (x : H) l, stackPeek { s' with h := x, calls := l } = .ok top :=
          fun x l => by simp [stackPeek, hs]
        rw [hp, Out.bind_ok]
        rw [htop, hops, hst]
        exact SimT.val rfl (haux _) (hit _)

end
end Joeson
