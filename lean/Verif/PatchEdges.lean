import Verif.EmbedPatch
import Verif.PatchMainProps

/-!
# `gr1c-patch -e` (C64)

From the command line and the texts of specification, automaton and change file to the automaton that is written.
-/

namespace Gr1c

/-! ## Specification -/

/-- How a command is written: the word and the values of the variables in their order of declaration. -/
def changeValues {evars svars : Decls} : Change (DVal evars) (DVal svars) → List Char × List ℤ
  | .restrictSys s t => ("restrict".toList, stateValues s ++ stateValues t)
  | .restrictEnv s e => ("restrict".toList, stateValues s ++ declValues evars e)
  | .relaxSys s t => ("relax".toList, stateValues s ++ stateValues t)
  | .relaxEnv s e => ("relax".toList, stateValues s ++ declValues evars e)
  | .blockSys x => ("blocksys".toList, declValues svars x)

/-- The text is a change file with neighbourhood `N` and commands `cs`. -/
def ChangesSay {evars svars : Decls} (N : List (IState evars svars)) (cs : List (Change (DVal evars) (DVal svars))) (text : List Char) : Prop :=
  ChangeFile [] (N.map stateValues) (cs.map changeValues) text

/-- The command removes a move of the environment. -/
def Change.cutsEnv {E S : Type} : Change E S → Bool
  | .restrictEnv _ _ => true
  | _ => false

section result

variable {E S : Type} [Fintype E] [DecidableEq E] [Fintype S] [DecidableEq S]

/-- `R` is the strategy `st` patched for the game `G'`, to which the commands `cs` lead, with neighbourhood `N`: an automaton whose edges
are legal moves of the system in `G'`, at most one for every move of the environment; on its runs the liveness part holds. Nodes are
those of `st`, or new ones in the neighbourhood with a goal mode that is touched. If no edge from another mode enters the neighbourhood
part of a touched mode and the environment can always move, then every move is answered, and nodes outside of the neighbourhood or with
untouched goal modes stay. -/
structure EdgesPatched (G' : Game E S) (egs sgs : List (Finset (E × S))) (N : List (E × S)) (cs : List (Change E S))
    (st R : Aut ℤ (E × S)) : Prop where
  ids : (R.map (·.id)).Nodup
  closed : ∀ x ∈ R, ∀ j ∈ x.trans, ∃ y ∈ R, y.id = j
  sound : ∀ x ∈ R, EdgesSound G' R x
  runs : ∀ ρ, IsRun R ρ → (∀ A ∈ egs, InfOften (fun k => (ρ k).state) A) → ∀ A ∈ sgs, InfOften (fun k => (ρ k).state) A
  answers : NoCross N cs st → (∀ s, ∃ e, G'.etr s e = true) → ∀ x ∈ R, Answered G' R x
  scope : ∀ y ∈ R, (∃ x ∈ st, x.state = y.state ∧ x.mode = y.mode ∧ x.initial = y.initial) ∨
    (y.state ∈ N ∧ TouchedMode st cs y.mode ∧ y.initial = false)
  keeps : NoCross N cs st → (∀ s, ∃ e, G'.etr s e = true) → ∀ x ∈ st, x.state ∉ N ∨ ¬ TouchedMode st cs x.mode →
    ∃ y ∈ R, y.state = x.state ∧ y.mode = x.mode ∧ y.initial = x.initial

end result

/-! ## Along the encoding -/

section pull

variable {E S E' S' : Type} [Fintype E] [DecidableEq E] [Fintype S] [DecidableEq S]
  [Fintype E'] [DecidableEq E'] [Fintype S'] [DecidableEq S']
  {G G' : Game E S} {H : Game E' S'} {ιe : E → E'} {ιs : S → S'}

theorem Moved.initial {st st' : Aut ℤ (E × S)} (h : Moved st st') {x x' : ANode ℤ (E × S)} (a : AtSame st st' x x') :
    x'.initial = x.initial := by
  obtain ⟨k, h1, h2⟩ := a
  exact (h.fields k _ _ h1 h2).2

theorem edges_pull (h : Embeds G H ιe ιs) (hse : Function.Surjective ιe) (hss : Function.Surjective ιs)
    {egs sgs : List (Finset (E × S))} {egs' sgs' : List (Finset (E' × S'))}
    (heg : List.Forall₂ (GoalRel ιe ιs) egs egs') (hsg : List.Forall₂ (GoalRel ιe ιs) sgs sgs')
    {st : Aut ℤ (E × S)} {st' : Aut ℤ (E' × S')} (hS : SeeksInOrder G egs.get sgs.get st) (hA : AnswersAll G st)
    (hN : Annotated sgs.get st) {N : List (E × S)} {cs : List (Change E S)} (hW : NoWrap sgs.get N cs st) (hC : ChangedByAll G cs G')
    (hm : Moved (withStates (Prod.map ιe ιs) st) st')
    {eps : List (E' × S' → E' → Bool)} {sps : List (E' × S' → E' × S' → Bool)} (hH : IsConjunction eps sps H)
    {os : ℕ → Oracle E' S'} (ho : ∀ g, (os g).Valid ((cs.map (Change.map ιe ιs)).foldl applyChange (localGame (N.map (Prod.map ιe ιs)) eps sps)))
    {fuel : ℕ} {R' : Aut ℤ (E' × S')}
    (hp : patchLocalfixpoint eps sps egs'.get sgs'.length (N.map (Prod.map ιe ιs)) (cs.map (Change.map ιe ιs)) os fuel st' = .ok R') :
    ∃ R, withStates (Prod.map ιe ιs) R = R' ∧ EdgesPatched G' egs sgs N cs st R := by
  obtain ⟨R, rfl⟩ := withStates_surj (hse.prodMap hss) R'
  have hn : sgs.length = sgs'.length := hsg.length_eq
  have hgr : ∀ i : Fin sgs'.length, GoalRel ιe ιs (sgs.get (Fin.cast hn.symm i)) (sgs'.get i) := fun i => forall₂_get hsg i
  have hN' : Annotated (fun i => sgs.get (Fin.cast hn.symm i)) st :=
    ⟨hN.nonneg, fun x hx y hy a b => (hN.mono x hx y hy a b).imp id fun ha i => ha _, hN.keys⟩
  have hW' : NoWrap (fun i => sgs.get (Fin.cast hn.symm i)) N cs st := by
    intro x hx y hy a b c d e
    obtain ⟨i, hi⟩ := hW x hx y hy a b c d e
    exact ⟨Fin.cast hn i, by simpa using hi⟩
  have k1 := hm.seeks (seeks_lists h heg hsg hS)
  have k2 := hm.answersAll ((answersAll_iff h hS.ids).2 hA)
  have k3 := hm.annotated (annotated_push h.inje h.injs hgr hN')
  have k4 := hm.noWrap (noWrap_push h.inje h.injs hgr hW')
  have k5 := changedByAll_foldl H (cs.map (Change.map ιe ιs))
  have hsame : Same G' ((cs.map (Change.map ιe ιs)).foldl applyChange H) ιe ιs := Same.changedAll h.inje h.injs h.same hC k5
  obtain ⟨q1, q2, q3, q4⟩ := patch_runs_partial hH k1 k2 k3 k4 k5 ho hp
  rw [withStates_ids] at q1
  have hfree : (∀ s, ∃ e, G'.etr s e = true) → ∀ s', ∃ e', ((cs.map (Change.map ιe ιs)).foldl applyChange H).etr s' e' = true := by
    intro hE s'
    obtain ⟨s, rfl⟩ := (hse.prodMap hss) s'
    obtain ⟨e, he⟩ := hE s
    exact ⟨ιe e, (hsame.etr s e).2 he⟩
  have hback : ∀ x' ∈ st', ∃ x ∈ st, x'.state = Prod.map ιe ιs x.state ∧ x'.mode = x.mode ∧ x'.initial = x.initial := by
    intro x' hx'
    obtain ⟨z, hz, a⟩ := hm.back hx'
    obtain ⟨x, hx, rfl⟩ := mem_withStates.1 hz
    exact ⟨x, hx, hm.state a, hm.mode a, hm.initial a⟩
  refine ⟨R, rfl, q1, withStates_closed.1 q2, ?_, ?_, ?_, ?_, ?_⟩
  · exact fun x hx => edgesSound_pull hsame q1 (q3 _ (mem_withStates.2 ⟨x, hx, rfl⟩))
  · intro ρ hρ hE A hA
    obtain ⟨i, rfl⟩ := List.get_of_mem hA
    have := q4 _ (isRun_push hρ) (fun r => (infOften_map (forall₂_get heg r) ρ).2 (hE _ (List.get_mem _ _))) (Fin.cast hn i)
    have := (infOften_map (hgr (Fin.cast hn i)) ρ).1 this
    simpa using this
  · intro hX hE x hx
    exact answered_pull h.inje hsame (patch_answers_partial hH k1 k2 k3 k4 k5 ho (hm.noCross (noCross_push h.inje h.injs hX)) (hfree hE) hp _
      (mem_withStates.2 ⟨x, hx, rfl⟩))
  · intro y hy
    rcases patch_scope hH k1 k2 k3 k4 ho hp _ (mem_withStates.2 ⟨y, hy, rfl⟩) with ⟨x', x1, -, x2, x3, x4⟩ | ⟨x1, x2, x3⟩
    · obtain ⟨x, hx, a, b, c⟩ := hback x' x1
      refine Or.inl ⟨x, hx, ?_, ?_, ?_⟩
      · exact (h.inje.prodMap h.injs) (a.symm.trans x2.symm)
      · exact b.symm.trans x3.symm
      · exact c.symm.trans x4.symm
    · refine Or.inr ⟨(mem_hood h.inje h.injs).1 x1, ?_, x3⟩
      exact (touchedMode_push h.inje h.injs cs _).1 ((hm.touchedMode _).1 x2)
  · intro hX hE x hx hout
    obtain ⟨c, -, hk⟩ := patch_keeps_partial hH k1 k2 k3 k4 k5 ho (hm.noCross (noCross_push h.inje h.injs hX)) (hfree hE) hp
    obtain ⟨x', hx', a⟩ := hm.forth (mem_withStates.2 ⟨x, hx, rfl⟩)
    obtain ⟨y', hy', ⟨-, b1, b2, b3⟩, -⟩ := hk x' hx' (by
      rw [hm.state a, hm.mode a]
      exact hout.imp (fun h0 h1 => h0 ((mem_hood h.inje h.injs).1 h1))
        fun h0 h1 => h0 ((touchedMode_push h.inje h.injs cs _).1 ((hm.touchedMode _).1 h1)))
    obtain ⟨y, hy, rfl⟩ := mem_withStates.1 hy'
    refine ⟨y, hy, (h.inje.prodMap h.injs) (b1.trans (hm.state a)), b2.trans (hm.mode a), b3.trans (hm.initial a)⟩

end pull

/-! ## The parts of the transition rules -/

theorem bddList_iff {N : ℕ} {vl : PTree} : ∀ {ts : List PTree} {bs : List (Bdd N)},
    bddList N vl ts = some bs ↔ List.Forall₂ (fun t b => ptreeBdd N vl t = .ok b) ts bs := by
  intro ts
  induction ts with
  | nil => intro bs; simp [bddList, eq_comm]
  | cons t ts ih =>
    intro bs
    rw [bddList]
    constructor
    · intro h
      split at h
      · rename_i b bs' h1 h2
        cases h
        exact .cons h1 (ih.1 h2)
      · cases h
    · intro h
      cases h with
      | cons h1 h2 =>
        rw [h1, ih.2 h2]

/-- Conjunctions of formulas have a BDD only if the formulas have. -/
theorem mergeLoop_parts {N : ℕ} {vl : PTree} : ∀ {ts : List PTree} {b : Bdd N}, ts ≠ [] → ptreeBdd N vl (mergeLoop .and ts) = .ok b →
    ∃ bs, bddList N vl ts = some bs ∧ ∀ a, b a = true ↔ ∀ c ∈ bs, c a = true := by
  intro ts
  induction ts with
  | nil => intro b h; exact absurd rfl h
  | cons t ts ih =>
    intro b _ h
    cases ts with
    | nil =>
      have h : ptreeBdd N vl t = .ok b := h
      exact ⟨[b], by simp [bddList, h], fun a => by simp⟩
    | cons u us =>
      have h : DRes.comb cuddAnd (ptreeBdd N vl (mergeLoop .and (u :: us))) (ptreeBdd N vl t) = .ok b := h
      cases h1 : ptreeBdd N vl (mergeLoop .and (u :: us)) with
      | ok f =>
        obtain ⟨bs, g1, g2⟩ := ih (by simp) h1
        rw [h1] at h
        cases h2 : ptreeBdd N vl t with
        | ok g =>
          rw [h2] at h
          simp only [DRes.comb, DRes.ok.injEq] at h
          subst h
          refine ⟨g :: bs, by rw [bddList, h2, g1], fun a => ?_⟩
          simp only [cuddAnd, Bool.and_eq_true, List.mem_cons, forall_eq_or_imp, g2 a]
          exact and_comm
        | null => rw [h2] at h; cases h
        | exit => rw [h2] at h; cases h
        | ub => rw [h2] at h; cases h
        | outside => rw [h2] at h; cases h
      | null => rw [h1] at h; cases h2 : ptreeBdd N vl t <;> rw [h2] at h <;> cases h
      | exit => rw [h1] at h; cases h
      | ub => rw [h1] at h; cases h
      | outside => rw [h1] at h; cases h

theorem merge_parts {N : ℕ} {vl : PTree} {ts : List PTree} {b : Bdd N} (h : ptreeBdd N vl (mergePtrees ts .and) = .ok b) :
    ∃ bs, bddList N vl ts = some bs ∧ ∀ a, b a = true ↔ ∀ c ∈ bs, c a = true := by
  cases ts with
  | nil => cases h
  | cons t ts =>
    cases ts with
    | nil => exact mergeLoop_parts (ts := [t]) (by simp) h
    | cons u us =>
      have e : mergePtrees (t :: u :: us) .and = mergeLoop .and (t :: u :: us).reverse := by
        simp [mergePtrees]
      rw [e] at h
      obtain ⟨bs, h1, h2⟩ := mergeLoop_parts (by simp) h
      refine ⟨bs.reverse, ?_, fun a => by rw [h2]; simp⟩
      rw [bddList_iff] at h1 ⊢
      rw [← List.forall₂_reverse_iff, List.reverse_reverse]
      exact h1

/-- The game of the BDDs is the conjunction of the games of the parts. -/
theorem build_parts {ne ns : ℕ} {vl : PTree} {sp : TSpec} {B : BitSpec ne ns} (h : buildBits ne ns vl sp = some B) :
    ∃ et st eg, bddList (2 * (ne + ns)) vl sp.etrans = some et ∧ bddList (2 * (ne + ns)) vl sp.strans = some st ∧
      bddList (2 * (ne + ns)) vl sp.egoals = some eg ∧ eg.map statesOf = B.egs ∧
      IsConjunction (et.map fun b => (bitGame b b).etr) (st.map fun b => (bitGame b b).str) B.game := by
  unfold buildBits at h
  split at h
  · rename_i et st eg sg ei si h1 h2 h3 h4 h5 h6
    cases h
    obtain ⟨bs, g1, g2⟩ := merge_parts h1
    obtain ⟨cs, k1, k2⟩ := merge_parts h2
    refine ⟨bs, cs, eg, g1, k1, h3, rfl, ?_, ?_⟩
    · intro s e
      rw [List.forall_mem_map]
      exact g2 _
    · intro s t
      rw [List.forall_mem_map]
      exact k2 _
  · cases h

/-! ## The oracles -/

theorem local_free {E S : Type} [Fintype E] [DecidableEq E] [Fintype S] [DecidableEq S] {G : Game E S}
    {eps : List (E × S → E → Bool)} {sps : List (E × S → E × S → Bool)} (hG : IsConjunction eps sps G) (h : ∀ s e, G.etr s e = true)
    (N : List (E × S)) : ∀ s e, (localGame N eps sps).etr s e = true := by
  intro s e
  change localRule N eps s e = true
  unfold localRule
  rw [List.all_eq_true]
  intro p hp
  rw [(hG.1 s e).1 (h s e) p hp, Bool.or_true]

theorem changes_free {E S : Type} [Fintype E] [DecidableEq E] [Fintype S] [DecidableEq S] : ∀ {cs : List (Change E S)} {G : Game E S},
    (∀ c ∈ cs, c.cutsEnv = false) → (∀ s e, G.etr s e = true) → ∀ s e, (cs.foldl applyChange G).etr s e = true := by
  intro cs
  induction cs with
  | nil => intro G _ h; exact h
  | cons c cs ih =>
    intro G hc h
    refine ih (fun c' h' => hc c' (List.mem_cons_of_mem _ h')) ?_
    intro s e
    have := hc c List.mem_cons_self
    cases c with
    | restrictEnv _ _ => cases this
    | relaxEnv _ _ => simp [applyChange, h]
    | _ => exact h s e

/-! ## Boolean variables -/

section bools

variable {evars svars : Decls}

theorem enc_surj_bools (hF : Fresh evars svars) (hb : ∀ d ∈ evars ++ svars, d.2 < 0) :
    Function.Surjective (encVal evars) ∧ Function.Surjective (encVal svars) := by
  have hx := hF.expanded
  rw [List.map_append] at hx
  have := List.nodup_append.1 hx
  exact ⟨fun w => enc_surj this.1 w fun d hd h0 => absurd (hb d (List.mem_append_left _ hd)) (by omega),
    fun w => enc_surj this.2.1 w fun d hd h0 => absurd (hb d (List.mem_append_right _ hd)) (by omega)⟩

theorem state_text (hF : Fresh evars svars) (hb : ∀ d ∈ evars ++ svars, d.2 < 0) (s : IState evars svars) :
    stateValues s = written01 (stBits (encState s)) := by
  rw [← values_bits hF]
  unfold bitValues
  refine decList_bools hb ?_
  change (written01 (stBits (encState s))).length = _
  rw [totalWidth_append, ← expDecls_length, ← expDecls_length]
  simp [written01, stBits]

theorem parts_text (hF : Fresh evars svars) (hb : ∀ d ∈ evars ++ svars, d.2 < 0) (e : DVal evars) (x : DVal svars) :
    declValues evars e = written01 (List.ofFn (encVal evars e)) ∧ declValues svars x = written01 (List.ofFn (encVal svars x)) := by
  have h := state_text hF hb (e, x)
  unfold stateValues stBits written01 at h
  rw [List.map_append] at h
  refine List.append_inj h ?_
  have hbe : ∀ d ∈ evars, d.2 < 0 := fun d hd => hb d (List.mem_append_left _ hd)
  change (List.ofFn _).length = (written01 (List.ofFn (encVal evars e))).length
  rw [written01_length, List.length_ofFn, List.length_ofFn, expDecls_length, width_bools hbe]

theorem change_text (hF : Fresh evars svars) (hb : ∀ d ∈ evars ++ svars, d.2 < 0) (hv : Nonempty (DVal evars)) (hv' : Nonempty (DVal svars))
    (c : Change (DVal evars) (DVal svars)) :
    changeValues c = changeText (c.map (encVal evars) (encVal svars)) := by
  have hs := state_text hF hb
  have he := fun e => (parts_text hF hb e hv'.some).1
  have hx := fun x => (parts_text hF hb hv.some x).2
  have happ : ∀ a b, written01 (a ++ b) = written01 a ++ written01 b := fun a b => List.map_append
  have two : ∀ s t : IState evars svars, stateValues s ++ stateValues t = written01 (stBits (encState s) ++ stBits (encState t)) := by
    intro s t; rw [happ, hs, hs]
  have one : ∀ (s : IState evars svars) (e : DVal evars), stateValues s ++ declValues evars e =
      written01 (stBits (encState s) ++ List.ofFn (encVal evars e)) := by
    intro s t; rw [happ, hs, he]
  cases c with
  | restrictSys s t => exact congrArg (Prod.mk _) (two s t)
  | restrictEnv s e => exact congrArg (Prod.mk _) (one s e)
  | relaxSys s t => exact congrArg (Prod.mk _) (two s t)
  | relaxEnv s e => exact congrArg (Prod.mk _) (one s e)
  | blockSys x => exact congrArg (Prod.mk _) (hx x)

theorem changes_text (hF : Fresh evars svars) (hb : ∀ d ∈ evars ++ svars, d.2 < 0) {N : List (IState evars svars)}
    {cs : List (Change (DVal evars) (DVal svars))} {text : List Char} (h : ChangesSay N cs text) :
    ChangeFileSays (N.map (Prod.map (encVal evars) (encVal svars))) (cs.map (Change.map (encVal evars) (encVal svars))) text := by
  have hv : ∀ ds : Decls, Nonempty (DVal ds) := fun ds => ⟨fun i => ⟨0, by unfold dcard; split <;> omega⟩⟩
  unfold ChangeFileSays
  unfold ChangesSay at h
  rw [List.map_map, List.map_map]
  have e1 : ((fun x => written01 (stBits x)) ∘ Prod.map (encVal evars) (encVal svars)) = stateValues := funext fun s => (state_text hF hb s).symm
  have e2 : (changeText ∘ Change.map (encVal evars) (encVal svars)) = changeValues := funext fun c => (change_text hF hb (hv _) (hv _) c).symm
  rw [e1, e2]
  exact h

end bools

/-! ## The program -/

theorem EdgesPatched.plain {E S : Type} [Fintype E] [DecidableEq E] [Fintype S] [DecidableEq S] {G' : Game E S}
    {egs sgs : List (Finset (E × S))} {N : List (E × S)} {cs : List (Change E S)} {st R : Aut ℤ (E × S)}
    (h : EdgesPatched G' (withDefaultGoal egs) sgs N cs st R) : EdgesPatched G' egs sgs N cs st R :=
  ⟨h.ids, h.closed, h.sound, fun ρ hρ he => h.runs ρ hρ (default_inf he), h.answers, h.scope, h.keeps⟩

/-- **C64, `-e`** (partial: `NoWrap`, and `NoCross` in `EdgesPatched`, as for C54; integer variables as in C62). Called with `-e` and a
change file, for a specification whose variables are Boolean, and with a strategy for it that seeks the goals in their order, answers
all moves and has the annotation of a synthesized strategy, `gr1c-patch` writes, with status 0, a strategy for the changed game
(`EdgesPatched`), or ends with status -1 and writes nothing, or runs into undefined behaviour, or does not end. -/
theorem patch_changes_edges_partial {w : PatchWorld} {args : List Arg} {os : List PgItem} {f : Option Arg} {d : FileData} {text : List Char}
    (h : PgCalled w args os f d text) (hs : PatchSpec d) (hw : w.Sane) (hb : ∀ v ∈ d.evars ++ d.svars, v.2 < 0) (hsv : d.svars ≠ [])
    {st : Aut ℤ (IState d.evars d.svars)} (hst : GivenStrategy d st text) (hA : AnswersAll (intGame d.evars d.svars d.sp) st)
    (hN : Annotated ((sysGoals d.sp).map fmStates).get st) {x : Arg} (he : (pgMeaning os f).edges = some x) {changes : List Char}
    (hx : w.file x = some changes) {N : List (IState d.evars d.svars)} {cs : List (Change (DVal d.evars) (DVal d.svars))}
    (hc : ChangesSay N cs changes) (henv : d.evars ≠ [] ∨ ∀ c ∈ cs, c.cutsEnv = false)
    (hW : NoWrap ((sysGoals d.sp).map fmStates).get N cs st) {G' : Game (DVal d.evars) (DVal d.svars)}
    (hC : ChangedByAll (intGame d.evars d.svars d.sp) cs G') :
    (∃ R, R ≠ [] ∧ EdgesPatched G' (d.sp.egoals.map fmStates) ((sysGoals d.sp).map fmStates) N cs st R ∧
      w.opens (pgMeaning os f) = true ∧ patchMain w args = pgOutput (pgMeaning os f) d R) ∨
    patchMain w args = .exit (-1) none ∨ patchMain w args = .ub ∨ patchMain w args = .timeout := by
  have hf : (pgMeaning os f).form = none := by
    rcases h.one with h' | h'
    · rw [he] at h'; cases h'
    · exact h'
  obtain ⟨sp', B, h1, hB, h3, h4⟩ := pg_front h hs.good hs.prefixFree
  obtain ⟨et, tr, eg, g1, g2, g3, g4, hH⟩ := build_parts h1
  have hmain := h4 .nil .nil (pgForm_none hf) rfl (expandForm_nil _)
  obtain ⟨st', m1, m2⟩ := load_values hs.good.fresh hs.prefixFree hs.ints hs.some_var hst.nonempty hst.seeks.ids hst.seeks.closed hst.fits w.stale
  rw [← hst.written] at m2
  have hbe : ∀ v ∈ d.evars, v.2 < 0 := fun v hv => hb v (List.mem_append_left _ hv)
  have hbs : ∀ v ∈ d.svars, v.2 < 0 := fun v hv => hb v (List.mem_append_right _ hv)
  have hall : (declVars d.evars d.svars).AllBool := by
    refine ⟨layout_bools hb 0, ?_, ?_⟩
    · rw [declVars_ne, width_bools hbe]; rfl
    · rw [declVars_ns, width_bools hbs]; rfl
  have hns : 0 < (declVars d.evars d.svars).ns := by
    rw [declVars_ns, width_bools hbs]; exact List.length_pos_of_ne_nil hsv
  set eps := et.map fun b => (bitGame b b).etr with heps
  set sps := tr.map fun b => (bitGame b b).str with hsps
  set N' := N.map (Prod.map (encVal d.evars) (encVal d.svars)) with hN'
  set cs' := cs.map (Change.map (encVal d.evars) (encVal d.svars)) with hcs'
  have hgo : patchMain w args = pgWrite w (pgMeaning os f) (expDecls d.evars) (expDecls d.svars) (intVars (d.evars ++ d.svars))
      (patchLocalfixpoint eps sps (withDefaultGoal B.egs).get B.sgs.length N' cs'
        (w.local_ _ _ (cs'.foldl applyChange (localGame N' eps sps))) w.fuel st').toP := by
    rw [hmain]
    unfold pgPatch
    rw [he]
    simp only [hx]
    have g1' : bddList (2 * ((declVars d.evars d.svars).ne + (declVars d.evars d.svars).ns)) (expDecls d.evars ++ expDecls d.svars).tree
      sp'.toT.etrans = some et := g1
    have g2' : bddList (2 * ((declVars d.evars d.svars).ne + (declVars d.evars d.svars).ns)) (expDecls d.evars ++ expDecls d.svars).tree
      sp'.toT.strans = some tr := g2
    have g3' : bddList (2 * ((declVars d.evars d.svars).ne + (declVars d.evars d.svars).ns)) (expDecls d.evars ++ expDecls d.svars).tree
      sp'.toT.egoals = some eg := g3
    unfold edgesFile
    rw [g1', g2', g3']
    simp only
    rw [change_file_read hall hns m2 (changes_text hs.good.fresh hb hc)]
    change pgWrite w (pgMeaning os f) (expDecls d.evars) (expDecls d.svars) (intVars (d.evars ++ d.svars))
      (patchLocalfixpoint eps sps (withDefaultGoal (eg.map statesOf)).get sp'.toT.sgoals.length N' cs'
        (w.local_ _ _ (cs'.foldl applyChange (localGame N' eps sps))) w.fuel st').toP = _
    rw [g4, buildBits_sgoals h1]
  have ho : ∀ g, (w.local_ _ _ (cs'.foldl applyChange (localGame N' eps sps)) g).Valid (cs'.foldl applyChange (localGame N' eps sps)) := by
    intro g
    apply hw.patching
    by_cases hev : d.evars = []
    · right
      have h5 : ∀ c ∈ cs, c.cutsEnv = false := henv.resolve_left fun h => h hev
      have h6 : ∀ f ∈ d.sp.etrans, f = .const 1 := hs.env.resolve_left fun h => h hev
      refine changes_free ?_ (local_free hH (hB.free hev h6) N')
      intro c hc
      obtain ⟨c, hc', rfl⟩ := List.mem_map.1 hc
      have := h5 c hc'
      cases c <;> first | rfl | cases this
    · left
      obtain ⟨v, vs, hv⟩ := List.exists_cons_of_ne_nil hev
      have : 0 < totalWidth d.evars := by
        rw [hv, totalWidth_cons]; have := declWidth_pos v; omega
      rwa [expDecls_length]
  generalize hres : patchLocalfixpoint eps sps (withDefaultGoal B.egs).get B.sgs.length N' cs'
        (w.local_ _ _ (cs'.foldl applyChange (localGame N' eps sps))) w.fuel st' = r at hgo
  cases r with
  | err => right; left; exact hgo
  | ub => right; right; left; exact hgo
  | timeout => right; right; right; exact hgo
  | ok R' =>
    obtain ⟨se, ss⟩ := enc_surj_bools hs.good.fresh hb
    obtain ⟨R, rfl, r2⟩ := edges_pull hB.emb se ss (default_rel hB.egs) hB.sgs hst.seeks hA hN hW hC m1 hH ho hres
    by_cases hR : R = []
    · subst hR; right; left; exact hgo
    · have hwr := pg_writes hs.good.fresh hs.prefixFree hs.ints (w := w) (c := pgMeaning os f) hR
      have hgo' := hgo.trans hwr
      cases hop : w.opens (pgMeaning os f) with
      | true =>
        left
        refine ⟨R, hR, r2.plain, rfl, hgo'.trans (if_pos hop)⟩
      | false =>
        right; left
        exact hgo'.trans (if_neg (by
          intro hc
          have : w.opens (pgMeaning os f) = true := hc
          rw [hop] at this
          cases this))

/-- **C64, a defect.** With integer variables of the environment and none of the system, `-e` reads beyond the end of an array, whatever
the change file (C62). -/
theorem patch_env_integers {w : PatchWorld} {args : List Arg} {os : List PgItem} {f : Option Arg} {d : FileData} {text : List Char}
    (h : PgCalled w args os f d text) (hs : PatchSpec d) (he : ∃ v ∈ d.evars, 0 ≤ v.2) (hsv : ∀ v ∈ d.svars, ¬ 0 ≤ v.2)
    {st : Aut ℤ (IState d.evars d.svars)} (hst : GivenStrategy d st text) {x : Arg} (hx : (pgMeaning os f).edges = some x)
    (hfile : w.file x ≠ none) : patchMain w args = .ub := by
  have hf : (pgMeaning os f).form = none := by
    rcases h.one with h' | h'
    · rw [hx] at h'; cases h'
    · exact h'
  obtain ⟨sp', B, h1, hB, h3, h4⟩ := pg_front h hs.good hs.prefixFree
  obtain ⟨et, tr, eg, g1, g2, g3, g4, hH⟩ := build_parts h1
  have hmain := h4 .nil .nil (pgForm_none hf) rfl (expandForm_nil _)
  obtain ⟨st', m1, m2⟩ := load_values hs.good.fresh hs.prefixFree hs.ints hs.some_var hst.nonempty hst.seeks.ids hst.seeks.closed hst.fits w.stale
  rw [← hst.written] at m2
  obtain ⟨changes, hch⟩ := Option.ne_none_iff_exists'.1 hfile
  rw [hmain]
  unfold pgPatch
  rw [hx]
  simp only [hch]
  have g1' : bddList (2 * ((declVars d.evars d.svars).ne + (declVars d.evars d.svars).ns)) (expDecls d.evars ++ expDecls d.svars).tree
    sp'.toT.etrans = some et := g1
  have g2' : bddList (2 * ((declVars d.evars d.svars).ne + (declVars d.evars d.svars).ns)) (expDecls d.evars ++ expDecls d.svars).tree
    sp'.toT.strans = some tr := g2
  have g3' : bddList (2 * ((declVars d.evars d.svars).ne + (declVars d.evars d.svars).ns)) (expDecls d.evars ++ expDecls d.svars).tree
    sp'.toT.egoals = some eg := g3
  unfold edgesFile
  rw [g1', g2', g3']
  simp only
  rw [env_integers_overread he hsv m2]
  rfl

end Gr1c
