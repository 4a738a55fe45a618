import Verif.InteractInv
import Verif.WinProps
import Verif.CTextProps

/-!
# C35, C36, C37: the interactive mode
-/

namespace Gr1c

variable {ne ns m n : ℕ}

theorem lists_of {k : ℕ} {o : IOut} {l : List (Val k)} {A : Set (Val k)} (ho : o = .rows (l.map vec))
    (hn : l.Nodup) (hA : ∀ x, x ∈ l ↔ x ∈ A) : Lists o A := ⟨l, ho, hn, hA⟩

/-- One command that succeeds answers as specified and keeps the variables as specified. -/
theorem step_correct (cover : Bdd (2 * (ne + ns)) → List (CubeArr (2 * (ne + ns))))
    (hcov : ∀ f, IsCover f (cover f)) (hm : 0 < m) (hn : 0 < n) (hns : 0 < ns) (sp : ISpec ne ns m n)
    (hE : NoPrimedSys sp.etrans) {σ σ' : ISess ne ns m n} {g : Games ne ns} (h : SessOk sp σ g)
    (c : ACmd ne ns n) {o : IOut} (hstep : iStep cover sp σ c.enc = .ok (σ', o)) :
    c.Answer sp g o ∧ SessOk sp σ' (c.next (bitGame sp.etrans sp.strans) g) := by
  have hcur := h.cur
  have hetr : ∀ s e, σ.et (joinAsg s (e, fun _ => false)) = g.cur.etr s e := by intro s e; rw [← hcur]; rfl
  have hstr : ∀ s t, σ.st (joinAsg s t) = g.cur.str s t := by intro s t; rw [← hcur]; rfl
  cases c with
  | winning s =>
    simp only [ACmd.enc, iStep, stateOf_stateVec, CRes.ok.injEq, Prod.mk.injEq] at hstep
    obtain ⟨rfl, rfl⟩ := hstep
    refine ⟨⟨_, rfl, ?_⟩, h⟩
    rw [decide_eq_true_iff]; exact h.mem_win hm hn s
  | envnext s =>
    simp only [ACmd.enc, iStep] at hstep
    by_cases h0 : 0 < ne
    · obtain ⟨l, e1, e2, e3⟩ := get_env_moves_exact cover hcov (fun _ => 2) σ.et h.noP s
      rw [if_pos h0, e1] at hstep
      simp only [CRes.ok.injEq, Prod.mk.injEq] at hstep
      obtain ⟨rfl, rfl⟩ := hstep
      refine ⟨?_, h⟩
      simp only [ACmd.Answer, if_pos h0]
      exact lists_of rfl e2 fun e => by rw [e3, hetr]; rfl
    · rw [if_neg h0] at hstep
      simp only [CRes.ok.injEq, Prod.mk.injEq] at hstep
      obtain ⟨rfl, rfl⟩ := hstep
      refine ⟨?_, h⟩
      simp only [ACmd.Answer, if_neg h0]
  | sysnext s e i =>
    simp only [ACmd.enc, iStep] at hstep
    cases hd : doSysnext cover σ (stateVec s ++ vec e) i.val with
    | ub => rw [hd] at hstep; simp at hstep
    | null => rw [hd] at hstep; simp at hstep
    | ok o' =>
      rw [hd] at hstep
      simp only [CRes.ok.injEq, Prod.mk.injEq] at hstep
      obtain ⟨rfl, rfl⟩ := hstep
      refine ⟨?_, h⟩
      obtain ⟨l, e1, e2, e3⟩ := (doSysnext_sound cover hcov σ s e i).2 _ hd
      refine ⟨{x | x ∈ l}, lists_of e1 e2 fun _ => Iff.rfl, ?_, ?_⟩
      · intro x hx
        rw [← hstr, ← h.mem_win hm hn]
        exact e3 x hx
      · intro hl j hj
        obtain ⟨l', f1, f2, f3, f4⟩ := doSysnext_exact cover hcov h hm hn hl s e i hj
        rw [hd, e1] at f1
        simp only [CRes.ok.injEq, IOut.rows.injEq] at f1
        have : l = l' := List.map_injective_iff.2 (fun _ _ => vec_inj) f1
        subst this
        exact ⟨fun a => Set.ext fun x => f3 a x, fun a => Set.ext fun x => f4 a x⟩
  | sysnexta s e =>
    obtain ⟨l, e1, e2, e3⟩ := listMoves_exact cover hcov σ.st s e
    simp only [ACmd.enc, iStep, e1, CRes.ok.injEq, Prod.mk.injEq] at hstep
    obtain ⟨rfl, rfl⟩ := hstep
    exact ⟨lists_of rfl e2 fun x => by rw [e3, hstr]; rfl, h⟩
  | getindex s i =>
    simp only [ACmd.enc, iStep, doGetindex, dif_pos i.isLt, stateOf_stateVec] at hstep
    by_cases hs : s ∈ σ.W
    · rw [if_neg (not_not.2 hs)] at hstep
      simp only [CRes.ok.injEq, Prod.mk.injEq] at hstep
      obtain ⟨rfl, rfl⟩ := hstep
      have hw := (h.mem_win hm hn s).1 hs
      exact ⟨⟨fun hno => absurd hw hno, fun _ => ⟨_, rfl, fun hl => (h.scan hm hn hl i s hw).2.2⟩⟩, h⟩
    · rw [if_pos hs] at hstep
      simp only [CRes.ok.injEq, Prod.mk.injEq] at hstep
      obtain ⟨rfl, rfl⟩ := hstep
      exact ⟨⟨fun _ => rfl, fun hw => absurd ((h.mem_win hm hn s).2 hw) hs⟩, h⟩
  | cutE s e =>
    simp only [ACmd.enc, iStep, CRes.ok.injEq, Prod.mk.injEq] at hstep
    obtain ⟨rfl, rfl⟩ := hstep
    have hd := doEdge_env false σ s e
    refine ⟨rfl, h.edit _ (hd s s).2.2.1 (hd s s).2.2.2 ?_ ?_ ?_⟩
    · intro u f x x'
      rw [(hd u (f, x)).1, (hd u (f, x')).1, h.noP u f x x']
    · intro u f
      rw [(hd u _).1, hetr]; rfl
    · intro u t
      rw [(hd s s).2.1, hstr]; rfl
  | addE s e =>
    simp only [ACmd.enc, iStep, CRes.ok.injEq, Prod.mk.injEq] at hstep
    obtain ⟨rfl, rfl⟩ := hstep
    have hd := doEdge_env true σ s e
    refine ⟨rfl, h.edit _ (hd s s).2.2.1 (hd s s).2.2.2 ?_ ?_ ?_⟩
    · intro u f x x'
      rw [(hd u (f, x)).1, (hd u (f, x')).1, h.noP u f x x']
    · intro u f
      rw [(hd u _).1, hetr]; rfl
    · intro u t
      rw [(hd s s).2.1, hstr]; rfl
  | cutS s v =>
    simp only [ACmd.enc, iStep, CRes.ok.injEq, Prod.mk.injEq] at hstep
    obtain ⟨rfl, rfl⟩ := hstep
    have hd := doEdge_sys hns false σ s v
    refine ⟨rfl, h.edit _ (hd s s).2.2.1 (hd s s).2.2.2 ?_ ?_ ?_⟩
    · rw [(hd s s).2.1]; exact h.noP
    · intro u f
      rw [(hd s s).2.1, hetr]; rfl
    · intro u t
      rw [(hd u t).1, hstr]; rfl
  | addS s v =>
    simp only [ACmd.enc, iStep, CRes.ok.injEq, Prod.mk.injEq] at hstep
    obtain ⟨rfl, rfl⟩ := hstep
    have hd := doEdge_sys hns true σ s v
    refine ⟨rfl, h.edit _ (hd s s).2.2.1 (hd s s).2.2.2 ?_ ?_ ?_⟩
    · rw [(hd s s).2.1]; exact h.noP
    · intro u f
      rw [(hd s s).2.1, hetr]; rfl
    · intro u t
      rw [(hd u t).1, hstr]; rfl
  | clear =>
    simp only [ACmd.enc, iStep, CRes.ok.injEq, Prod.mk.injEq] at hstep
    obtain ⟨rfl, rfl⟩ := hstep
    exact ⟨rfl, h.edit _ rfl rfl hE (fun _ _ => rfl) fun _ _ => rfl⟩
  | noE e =>
    simp only [ACmd.enc, iStep, CRes.ok.injEq, Prod.mk.injEq] at hstep
    obtain ⟨rfl, rfl⟩ := hstep
    refine ⟨rfl, h.edit _ rfl rfl ?_ ?_ ?_⟩
    · intro u f x x'
      simp only [cuddAnd, cuddNot, stateToBdd_env]
      rw [h.noP u f x x']
    · intro u f
      simp only [cuddAnd, cuddNot, stateToBdd_env, hetr]; rfl
    · intro u t; exact hstr u t
  | noS x =>
    simp only [ACmd.enc, iStep, CRes.ok.injEq, Prod.mk.injEq] at hstep
    obtain ⟨rfl, rfl⟩ := hstep
    refine ⟨rfl, h.edit _ rfl rfl h.noP ?_ ?_⟩
    · intro u f; exact hetr u f
    · intro u t
      simp only [cuddAnd, cuddNot, stateToBdd_sys, hstr]; rfl
  | rewin =>
    simp only [ACmd.enc, iStep, hcur] at hstep
    cases hW : winningSet g.cur sp.eg sp.sg with
    | none => rw [hW] at hstep; simp at hstep
    | some W =>
      rw [hW] at hstep
      simp only [CRes.ok.injEq, Prod.mk.injEq] at hstep
      obtain ⟨rfl, rfl⟩ := hstep
      exact ⟨rfl, h.noP, hcur, hW, h.lev⟩
  | relevels => exact SessOk.of_relevels cover h.noP hcur hstep

/-- A command succeeds unless it is `sysnext` for a losing state or with outdated levels. -/
theorem step_total (cover : Bdd (2 * (ne + ns)) → List (CubeArr (2 * (ne + ns))))
    (hcov : ∀ f, IsCover f (cover f)) (hm : 0 < m) (hn : 0 < n) (sp : ISpec ne ns m n)
    {σ : ISess ne ns m n} {g : Games ne ns} (h : SessOk sp σ g) (c : ACmd ne ns n)
    (hask : ∀ s e i, c = .sysnext s e i → g.win = g.lev ∧ CanWin g.win sp.eg sp.sg s) :
    ∃ σ' o, iStep cover sp σ c.enc = .ok (σ', o) := by
  have hdef : ∀ G : Game (Val ne) (Val ns), ∃ W, winningSet G sp.eg sp.sg = some W := by
    intro G; unfold winningSet; rw [dif_pos hn]; exact ⟨_, rfl⟩
  cases c with
  | envnext s =>
    simp only [ACmd.enc, iStep]
    obtain ⟨l, e1, _⟩ := get_env_moves_exact cover hcov (fun _ => 2) σ.et h.noP s
    rw [e1]
    split <;> exact ⟨_, _, rfl⟩
  | sysnext s e i =>
    obtain ⟨hl, hw⟩ := hask s e i rfl
    obtain ⟨_, _, hj⟩ := h.scan hm hn hl i s hw
    obtain ⟨l, e1, _⟩ := doSysnext_exact cover hcov h hm hn hl s e i hj
    simp only [ACmd.enc, iStep, e1]
    exact ⟨_, _, rfl⟩
  | sysnexta s e =>
    obtain ⟨l, e1, _⟩ := listMoves_exact cover hcov σ.st s e
    simp only [ACmd.enc, iStep, e1]
    exact ⟨_, _, rfl⟩
  | getindex s i =>
    simp only [ACmd.enc, iStep, doGetindex, dif_pos i.isLt]
    by_cases hs : stateOf (stateVec s) ∉ σ.W
    · simp only [if_pos hs]; exact ⟨_, _, rfl⟩
    · simp only [if_neg hs]; exact ⟨_, _, rfl⟩
  | rewin =>
    obtain ⟨W, hW⟩ := hdef (bitGame σ.et σ.st)
    simp only [ACmd.enc, iStep, hW]
    exact ⟨_, _, rfl⟩
  | relevels =>
    obtain ⟨W, hW⟩ := hdef (bitGame σ.et σ.st)
    simp only [ACmd.enc, iStep, hW, computeSublevels, if_pos hn]
    exact ⟨_, _, rfl⟩
  | _ => exact ⟨_, _, rfl⟩

theorem run_correct (cover : Bdd (2 * (ne + ns)) → List (CubeArr (2 * (ne + ns))))
    (hcov : ∀ f, IsCover f (cover f)) (hm : 0 < m) (hn : 0 < n) (hns : 0 < ns) (sp : ISpec ne ns m n)
    (hE : NoPrimedSys sp.etrans) (cs : List (ACmd ne ns n)) :
    ∀ (σ σ' : ISess ne ns m n) (g : Games ne ns) (os : List IOut), SessOk sp σ g →
      iRun cover sp σ (cs.map ACmd.enc) = .ok (σ', os) →
      Answers sp (bitGame sp.etrans sp.strans) g cs os ∧
        SessOk sp σ' (cs.foldl (fun g c => c.next (bitGame sp.etrans sp.strans) g) g) := by
  induction cs with
  | nil =>
    intro σ σ' g os h hr
    simp only [List.map_nil, iRun, CRes.ok.injEq, Prod.mk.injEq] at hr
    obtain ⟨rfl, rfl⟩ := hr
    exact ⟨rfl, h⟩
  | cons c cs ih =>
    intro σ σ' g os h hr
    rw [List.map_cons, iRun] at hr
    cases hc : iStep cover sp σ c.enc with
    | ub => rw [hc] at hr; simp at hr
    | null => rw [hc] at hr; simp at hr
    | ok r =>
      obtain ⟨σ1, o⟩ := r
      rw [hc] at hr
      simp only at hr
      obtain ⟨a1, a2⟩ := step_correct cover hcov hm hn hns sp hE h c hc
      cases hrest : iRun cover sp σ1 (cs.map ACmd.enc) with
      | ub => rw [hrest] at hr; simp at hr
      | null => rw [hrest] at hr; simp at hr
      | ok r =>
        obtain ⟨σ2, os2⟩ := r
        rw [hrest] at hr
        simp only [CRes.ok.injEq, Prod.mk.injEq] at hr
        obtain ⟨rfl, rfl⟩ := hr
        obtain ⟨b1, b2⟩ := ih _ _ _ _ a2 hrest
        exact ⟨⟨a1, b1⟩, b2⟩

theorem run_total (cover : Bdd (2 * (ne + ns)) → List (CubeArr (2 * (ne + ns))))
    (hcov : ∀ f, IsCover f (cover f)) (hm : 0 < m) (hn : 0 < n) (hns : 0 < ns) (sp : ISpec ne ns m n)
    (hE : NoPrimedSys sp.etrans) (cs : List (ACmd ne ns n)) :
    ∀ (σ : ISess ne ns m n) (g : Games ne ns), SessOk sp σ g → Asks sp (bitGame sp.etrans sp.strans) g cs →
      ∃ σ' os, iRun cover sp σ (cs.map ACmd.enc) = .ok (σ', os) := by
  induction cs with
  | nil => intro σ g _ _; exact ⟨_, _, rfl⟩
  | cons c cs ih =>
    intro σ g h ha
    obtain ⟨ha1, ha2⟩ := ha
    obtain ⟨σ1, o, hc⟩ := step_total cover hcov hm hn sp h c (by
      rintro s e i rfl; exact ha1)
    obtain ⟨_, a2⟩ := step_correct cover hcov hm hn hns sp hE h c hc
    obtain ⟨σ2, os, hr⟩ := ih _ _ a2 ha2
    refine ⟨σ2, o :: os, ?_⟩
    rw [List.map_cons, iRun, hc]
    simp only [hr]

/-! ## C35 -/

/-- **C35, C36 and the sound part of C37.** In a session (the first command executed is always
`refresh levels`) that does not read beyond the arrays of levels, every answer is as specified by
`ACmd.Answer`: the moves listed are those of the relations as edited up to that point, `winning` and
`getindex` answer for the relations as they were at the last refresh, and every row of `sysnext` is a legal
move to a winning state. At the end the relations are those obtained by editing single edges. -/
theorem interactive_session (cover : Bdd (2 * (ne + ns)) → List (CubeArr (2 * (ne + ns))))
    (hcov : ∀ f, IsCover f (cover f)) (hm : 0 < m) (hn : 0 < n) (hns : 0 < ns) (sp : ISpec ne ns m n)
    (hE : NoPrimedSys sp.etrans) (cs : List (ACmd ne ns n)) (σ' : ISess ne ns m n) (os : List IOut)
    (hr : iRun cover sp (iStart sp) (.relevels :: cs.map ACmd.enc) = .ok (σ', os)) :
    ∃ os', os = .nothing :: os' ∧
      Answers sp (bitGame sp.etrans sp.strans)
        ⟨bitGame sp.etrans sp.strans, bitGame sp.etrans sp.strans, bitGame sp.etrans sp.strans⟩ cs os' ∧
      bitGame σ'.et σ'.st =
        cs.foldl (fun G c => c.edit (bitGame sp.etrans sp.strans) G) (bitGame sp.etrans sp.strans) := by
  rw [iRun] at hr
  cases hc : iStep cover sp (iStart sp) .relevels with
  | ub => rw [hc] at hr; simp at hr
  | null => rw [hc] at hr; simp at hr
  | ok r =>
    obtain ⟨σ1, o⟩ := r
    rw [hc] at hr
    simp only at hr
    obtain ⟨rfl, h1⟩ := SessOk.of_relevels (G := bitGame sp.etrans sp.strans) cover (by exact hE) rfl hc
    cases hrest : iRun cover sp σ1 (cs.map ACmd.enc) with
    | ub => rw [hrest] at hr; simp at hr
    | null => rw [hrest] at hr; simp at hr
    | ok r =>
      obtain ⟨σ2, os2⟩ := r
      rw [hrest] at hr
      simp only [CRes.ok.injEq, Prod.mk.injEq] at hr
      obtain ⟨rfl, rfl⟩ := hr
      obtain ⟨b1, b2⟩ := run_correct cover hcov hm hn hns sp hE cs _ _ _ _ h1 hrest
      refine ⟨os2, rfl, b1, ?_⟩
      rw [b2.cur]
      have : ∀ (cs : List (ACmd ne ns n)) (g : Games ne ns),
          (cs.foldl (fun g c => c.next (bitGame sp.etrans sp.strans) g) g).cur =
            cs.foldl (fun G c => c.edit (bitGame sp.etrans sp.strans) G) g.cur := by
        intro cs
        induction cs with
        | nil => intro g; rfl
        | cons c cs ih =>
          intro g
          rw [List.foldl_cons, List.foldl_cons, ih]
          congr 1
          cases c <;> rfl
      exact this cs _

/-- Sessions do not fail: the only commands that can are `sysnext` for a losing state or with outdated
levels. -/
theorem interactive_total (cover : Bdd (2 * (ne + ns)) → List (CubeArr (2 * (ne + ns))))
    (hcov : ∀ f, IsCover f (cover f)) (hm : 0 < m) (hn : 0 < n) (hns : 0 < ns) (sp : ISpec ne ns m n)
    (hE : NoPrimedSys sp.etrans) (cs : List (ACmd ne ns n))
    (ha : Asks sp (bitGame sp.etrans sp.strans)
      ⟨bitGame sp.etrans sp.strans, bitGame sp.etrans sp.strans, bitGame sp.etrans sp.strans⟩ cs) :
    ∃ σ' os, iRun cover sp (iStart sp) (.relevels :: cs.map ACmd.enc) = .ok (σ', os) := by
  obtain ⟨W, hW⟩ : ∃ W, winningSet (bitGame sp.etrans sp.strans) sp.eg sp.sg = some W := by
    unfold winningSet; rw [dif_pos hn]; exact ⟨_, rfl⟩
  have hc : ∃ σ1, iStep cover sp (iStart sp) .relevels = .ok (σ1, .nothing) := by
    simp only [iStep, iStart, hW, computeSublevels, if_pos hn]
    exact ⟨_, rfl⟩
  obtain ⟨σ1, hc⟩ := hc
  obtain ⟨_, h1⟩ := SessOk.of_relevels (G := bitGame sp.etrans sp.strans) cover (by exact hE) rfl hc
  obtain ⟨σ2, os, hr⟩ := run_total cover hcov hm hn hns sp hE cs _ _ h1 ha
  refine ⟨σ2, .nothing :: os, ?_⟩
  rw [iRun, hc]
  simp only [hr]

/-! ## Text of commands -/

theorem bitInts_length {k : ℕ} (v : Val k) : (bitInts v).length = k := by simp [bitInts]

theorem bitInts_toNat {k : ℕ} (v : Val k) : (bitInts v).map Int.toNat = vec v := by
  unfold bitInts vec
  rw [List.map_ofFn]
  congr 1
  funext i
  simp only [Function.comp]
  cases v i <;> rfl

theorem bitInts_01 {k : ℕ} (v : Val k) : ∀ x ∈ bitInts v, x = 0 ∨ x = 1 := by
  intro x hx
  simp only [bitInts, List.mem_ofFn] at hx
  obtain ⟨i, rfl⟩ := hx
  cases v i <;> simp

theorem stateInts_length (s : BState ne ns) : (stateInts s).length = ne + ns := by
  simp [stateInts, bitInts_length]

theorem stateInts_toNat (s : BState ne ns) : (stateInts s).map Int.toNat = stateVec s := by
  simp only [stateInts, List.map_append, bitInts_toNat]; rfl

theorem stateInts_01 (s : BState ne ns) : ∀ x ∈ stateInts s, x = 0 ∨ x = 1 := by
  intro x hx
  rcases List.mem_append.1 hx with h | h
  · exact bitInts_01 _ x h
  · exact bitInts_01 _ x h

theorem stored_01 {l : List ℤ} (h : ∀ x ∈ l, x = 0 ∨ x = 1) : l.map stored = l := by
  conv_rhs => rw [← List.map_id l]
  apply List.map_congr_left
  intro x hx
  rcases h x hx with rfl | rfl <;> exact stored_int (by norm_num) (by norm_num)

theorem asBits_01 {l : List ℤ} (h : ∀ x ∈ l, x = 0 ∨ x = 1) : asBits l = some (l.map Int.toNat) := by
  unfold asBits; rw [if_pos h]

theorem mem_append_01 {l r : List ℤ} (h : ∀ x ∈ l, x = 0 ∨ x = 1) (h' : ∀ x ∈ r, x = 0 ∨ x = 1) :
    ∀ x ∈ l ++ r, x = 0 ∨ x = 1 := by
  intro x hx
  rcases List.mem_append.1 hx with a | a
  · exact h x a
  · exact h' x a

/-- Reading as many numbers as wanted. -/
theorem read_nums {l more : List ℤ} {rest : List Char} (h : Numbers (l ++ more) rest) :
    readStateStr rest (l.length : ℕ) = l.map stored := by
  rw [read_state_str_exact h, if_neg (by omega), Int.toNat_natCast, List.take_left]

theorem argCmd_nums (input w rest : List Char) (hdrop : input.drop (w.length + 1) = rest) (len : ℕ)
    (mk : List ℕ → ICmd) {l more : List ℤ} (hlen : l.length = len) (h01 : ∀ x ∈ l, x = 0 ∨ x = 1)
    (h : Numbers (l ++ more) rest) : argCmd input w len mk = .cmd (mk (l.map Int.toNat)) := by
  unfold argCmd
  subst hlen
  rw [hdrop, read_nums h, stored_01 h01]
  simp only [if_true, asBits_01 h01]

theorem edgeCmd_nums (input w rest : List Char) (hdrop : input.drop (w.length + 1) = rest)
    (mk : List ℕ → ICmd) {l : List ℤ} (hlen : l.length = 2 * (ne + ns) ∨ l.length = 2 * ne + ns)
    (h01 : ∀ x ∈ l, x = 0 ∨ x = 1) (h : Numbers l rest) :
    edgeCmd ne ns input w mk = .cmd (mk (l.map Int.toNat)) := by
  unfold edgeCmd
  have hr : readStateStr rest (2 * (ne + ns) : ℕ) = l := by
    rw [read_state_str_exact h, if_neg (by omega), Int.toNat_natCast,
      List.take_of_length_le (by omega), stored_01 h01]
  rw [hdrop, hr]
  simp only [if_pos hlen, asBits_01 h01]

theorem modeCmd_nums (input w rest : List Char) (hdrop : input.drop (w.length + 1) = rest) (len : ℕ)
    (mk : List ℕ → ℕ → ICmd) {l more : List ℤ} (i : Fin n) (hi : n ≤ 2 ^ 31) (hlen : l.length = len)
    (h01 : ∀ x ∈ l, x = 0 ∨ x = 1) (h : Numbers ((l ++ [(i.val : ℤ)]) ++ more) rest) :
    modeCmd input w len n mk = .cmd (mk (l.map Int.toNat) i.val) := by
  have hilt := i.isLt
  have hst : stored (i.val : ℤ) = i.val := stored_int (by omega) (by omega)
  unfold modeCmd
  subst hlen
  have hr : readStateStr rest (l.length + 1 : ℕ) = l ++ [(i.val : ℤ)] := by
    have := read_nums h
    rw [List.length_append, List.length_singleton] at this
    rw [this, List.map_append, stored_01 h01, List.map_singleton, hst]
  rw [hdrop, hr]
  simp only [List.length_append, List.length_singleton, ne_eq, not_true_eq_false, if_false]
  rw [List.getD_eq_getElem?_getD, List.getElem?_append_right le_rfl]
  simp only [Nat.sub_self, List.getElem?_cons_zero, Option.getD_some]
  rw [if_neg (by omega), List.take_left, asBits_01 h01]
  simp only [Int.toNat_natCast]

theorem line_winning (ne ns n : ℕ) (rest : List Char) : parseLine ne ns n ("winning ".toList ++ rest) =
    argCmd ("winning ".toList ++ rest) "winning".toList (ne + ns) .winning := rfl

theorem drop_winning (rest : List Char) : ("winning ".toList ++ rest).drop ("winning".toList.length + 1) = rest := rfl

theorem line_envnext (ne ns n : ℕ) (rest : List Char) : parseLine ne ns n ("envnext ".toList ++ rest) =
    argCmd ("envnext ".toList ++ rest) "envnext".toList (ne + ns) .envnext := rfl

theorem drop_envnext (rest : List Char) : ("envnext ".toList ++ rest).drop ("envnext".toList.length + 1) = rest := rfl

theorem line_sysnext (ne ns n : ℕ) (rest : List Char) : parseLine ne ns n ("sysnext ".toList ++ rest) =
    modeCmd ("sysnext ".toList ++ rest) "sysnext".toList (2 * ne + ns) n .sysnext := rfl

theorem drop_sysnext (rest : List Char) : ("sysnext ".toList ++ rest).drop ("sysnext".toList.length + 1) = rest := rfl

theorem line_sysnexta (ne ns n : ℕ) (rest : List Char) : parseLine ne ns n ("sysnexta ".toList ++ rest) =
    argCmd ("sysnexta ".toList ++ rest) "sysnexta".toList (2 * ne + ns) .sysnexta := rfl

theorem drop_sysnexta (rest : List Char) : ("sysnexta ".toList ++ rest).drop ("sysnexta".toList.length + 1) = rest := rfl

theorem line_restrict (ne ns n : ℕ) (rest : List Char) : parseLine ne ns n ("restrict ".toList ++ rest) =
    edgeCmd ne ns ("restrict ".toList ++ rest) "restrict".toList .restrict := rfl

theorem drop_restrict (rest : List Char) : ("restrict ".toList ++ rest).drop ("restrict".toList.length + 1) = rest := rfl

theorem line_relax (ne ns n : ℕ) (rest : List Char) : parseLine ne ns n ("relax ".toList ++ rest) =
    edgeCmd ne ns ("relax ".toList ++ rest) "relax".toList .relax := rfl

theorem drop_relax (rest : List Char) : ("relax ".toList ++ rest).drop ("relax".toList.length + 1) = rest := rfl

theorem line_blockenv (ne ns n : ℕ) (rest : List Char) : parseLine ne ns n ("blockenv ".toList ++ rest) =
    argCmd ("blockenv ".toList ++ rest) "blockenv".toList ne .blkenv := rfl

theorem drop_blockenv (rest : List Char) : ("blockenv ".toList ++ rest).drop ("blockenv".toList.length + 1) = rest := rfl

theorem line_blocksys (ne ns n : ℕ) (rest : List Char) : parseLine ne ns n ("blocksys ".toList ++ rest) =
    argCmd ("blocksys ".toList ++ rest) "blocksys".toList ns .blksys := rfl

theorem drop_blocksys (rest : List Char) : ("blocksys ".toList ++ rest).drop ("blocksys".toList.length + 1) = rest := rfl

theorem line_getindex (ne ns n : ℕ) (rest : List Char) : parseLine ne ns n ("getindex ".toList ++ rest) =
    modeCmd ("getindex ".toList ++ rest) "getindex".toList (ne + ns) n .getindex := rfl

theorem drop_getindex (rest : List Char) : ("getindex ".toList ++ rest).drop ("getindex".toList.length + 1) = rest := rfl

/-- Every command is recognised from its name and its numbers, however they are written; for commands other
than `restrict` and `relax` further text is ignored. -/
theorem parse_command (hn : n ≤ 2 ^ 31) (c : ACmd ne ns n) (rest : List Char) (more : List ℤ)
    (hmore : match c with | .cutE .. | .addE .. | .cutS .. | .addS .. => more = [] | _ => True)
    (hnum : Numbers (c.nums ++ more) rest) : parseLine ne ns n (c.word ++ rest) = .cmd c.enc := by
  cases c with
  | winning s =>
    show parseLine ne ns n ("winning ".toList ++ rest) = _
    rw [line_winning, argCmd_nums _ _ rest (drop_winning rest) _ _ (stateInts_length s) (stateInts_01 s) hnum, stateInts_toNat]
    rfl
  | envnext s =>
    show parseLine ne ns n ("envnext ".toList ++ rest) = _
    rw [line_envnext, argCmd_nums _ _ rest (drop_envnext rest) _ _ (stateInts_length s) (stateInts_01 s) hnum, stateInts_toNat]
    rfl
  | sysnext s e i =>
    show parseLine ne ns n ("sysnext ".toList ++ rest) = _
    rw [line_sysnext, modeCmd_nums _ _ rest (drop_sysnext rest) _ _ i hn
      (by rw [List.length_append, stateInts_length, bitInts_length]; omega)
      (mem_append_01 (stateInts_01 s) (bitInts_01 e)) hnum, List.map_append, stateInts_toNat, bitInts_toNat]
    rfl
  | sysnexta s e =>
    show parseLine ne ns n ("sysnexta ".toList ++ rest) = _
    rw [line_sysnexta, argCmd_nums _ _ rest (drop_sysnexta rest) _ _
      (by rw [List.length_append, stateInts_length, bitInts_length]; omega)
      (mem_append_01 (stateInts_01 s) (bitInts_01 e)) hnum, List.map_append, stateInts_toNat, bitInts_toNat]
    rfl
  | cutE s e =>
    simp only at hmore
    subst hmore
    rw [List.append_nil] at hnum
    show parseLine ne ns n ("restrict ".toList ++ rest) = _
    rw [line_restrict, edgeCmd_nums _ _ rest (drop_restrict rest) _
      (by rw [List.length_append, stateInts_length, bitInts_length]; omega)
      (mem_append_01 (stateInts_01 s) (bitInts_01 e)) hnum]
    simp only [ACmd.enc, List.map_append, stateInts_toNat, bitInts_toNat]
  | addE s e =>
    simp only at hmore
    subst hmore
    rw [List.append_nil] at hnum
    show parseLine ne ns n ("relax ".toList ++ rest) = _
    rw [line_relax, edgeCmd_nums _ _ rest (drop_relax rest) _
      (by rw [List.length_append, stateInts_length, bitInts_length]; omega)
      (mem_append_01 (stateInts_01 s) (bitInts_01 e)) hnum]
    simp only [ACmd.enc, List.map_append, stateInts_toNat, bitInts_toNat]
  | cutS s t =>
    simp only at hmore
    subst hmore
    rw [List.append_nil] at hnum
    show parseLine ne ns n ("restrict ".toList ++ rest) = _
    rw [line_restrict, edgeCmd_nums _ _ rest (drop_restrict rest) _
      (by rw [List.length_append, stateInts_length, stateInts_length]; omega)
      (mem_append_01 (stateInts_01 s) (stateInts_01 t)) hnum]
    simp only [ACmd.enc, List.map_append, stateInts_toNat]
  | addS s t =>
    simp only at hmore
    subst hmore
    rw [List.append_nil] at hnum
    show parseLine ne ns n ("relax ".toList ++ rest) = _
    rw [line_relax, edgeCmd_nums _ _ rest (drop_relax rest) _
      (by rw [List.length_append, stateInts_length, stateInts_length]; omega)
      (mem_append_01 (stateInts_01 s) (stateInts_01 t)) hnum]
    simp only [ACmd.enc, List.map_append, stateInts_toNat]
  | clear => rfl
  | noE e =>
    show parseLine ne ns n ("blockenv ".toList ++ rest) = _
    rw [line_blockenv, argCmd_nums _ _ rest (drop_blockenv rest) _ _ (bitInts_length e) (bitInts_01 e) hnum, bitInts_toNat]
    rfl
  | noS x =>
    show parseLine ne ns n ("blocksys ".toList ++ rest) = _
    rw [line_blocksys, argCmd_nums _ _ rest (drop_blocksys rest) _ _ (bitInts_length x) (bitInts_01 x) hnum, bitInts_toNat]
    rfl
  | getindex s i =>
    show parseLine ne ns n ("getindex ".toList ++ rest) = _
    rw [line_getindex, modeCmd_nums _ _ rest (drop_getindex rest) _ _ i hn (stateInts_length s) (stateInts_01 s) hnum, stateInts_toNat]
    rfl
  | rewin => rfl
  | relevels => rfl

/-! ## C37 -/

/-- Winning states have an index. -/
theorem canWin_index (G : Game (Val ne) (Val ns)) (sp : ISpec ne ns m n) (hm : 0 < m) (hn : 0 < n)
    (s : BState ne ns) (hs : CanWin G sp.eg sp.sg s) (i : Fin n) : ∃ j, IsIndex G sp i s j := by
  obtain ⟨W, hW⟩ : ∃ W, winningSet G sp.eg sp.sg = some W := by
    unfold winningSet; rw [dif_pos hn]; exact ⟨_, rfl⟩
  have hmem : ∀ t, t ∈ W ↔ CanWin G sp.eg sp.sg t :=
    fun t => ⟨fun ht => wins_of_mem hm hn hW ht, fun ⟨_, ht⟩ => mem_of_wins hm hW ht⟩
  have hgoal : ∀ t, t ∈ goodGoal G sp i ↔ t ∈ sp.sg i ∩ W := by
    intro t; rw [Finset.mem_inter, hmem]; rfl
  have h1 : s ∈ muY G sp.eg (sp.sg i ∩ W) := by rw [muY_goal_W hm hn hW]; exact (hmem s).2 hs
  have hex : ∃ j, s ∈ WithinLevel G sp.eg (goodGoal G sp i) j :=
    ⟨_, (withinLevel_iff G sp.eg _ _ hgoal _ s).2 (mem_ylev_lev h1)⟩
  classical
  exact ⟨Nat.find hex, Nat.find_spec hex, fun k hk => Nat.find_min hex hk⟩

/-- A level contains the goal states. -/
theorem goodGoal_level (G : Game (Val ne) (Val ns)) (sp : ISpec ne ns m n) (hm : 0 < m) (i : Fin n)
    (s : BState ne ns) (hs : s ∈ goodGoal G sp i) : s ∈ WithinLevel G sp.eg (goodGoal G sp i) 1 :=
  ⟨⟨0, hm⟩, {s}, rfl, by rintro t rfl; exact Or.inl hs⟩

/-- **C37, when something is listed.** For a winning state and a legal environment move, with everything up to
date, `sysnext` lists at least one move exactly if the state is not a goal state or there is a move within
level 1. -/
theorem sysnext_nonempty_iff (sp : ISpec ne ns m n) (hm : 0 < m) (hn : 0 < n) (G : Game (Val ne) (Val ns))
    (s : BState ne ns) (e : Val ne) (i : Fin n) (hs : CanWin G sp.eg sp.sg s) (he : G.etr s e = true)
    (o : IOut) (h : (ACmd.sysnext s e i).Answer sp ⟨G, G, G⟩ o) :
    o ≠ .rows [] ↔ s ∉ sp.sg i ∨
      ∃ x, G.str s (e, x) = true ∧ (e, x) ∈ WithinLevel G sp.eg (goodGoal G sp i) 1 := by
  obtain ⟨j, hj⟩ := canWin_index G sp hm hn s hs i
  obtain ⟨A, ⟨l, rfl, _, hl⟩, _, hA⟩ := h
  obtain ⟨hA1, hA2⟩ := hA rfl j hj
  simp only at hA1 hA2
  have hne : IOut.rows (l.map vec) ≠ .rows [] ↔ ∃ x, x ∈ A := by
    rw [Ne, IOut.rows.injEq, List.map_eq_nil_iff]
    constructor
    · intro hne
      obtain ⟨x, hx⟩ := List.exists_mem_of_ne_nil l hne
      exact ⟨x, (hl x).1 hx⟩
    · rintro ⟨x, hx⟩ rfl
      exact absurd ((hl x).2 hx) List.not_mem_nil
  rw [hne]
  by_cases hg : s ∈ sp.sg i
  · have hj1 : j = 1 := by
      have h1 := goodGoal_level G sp hm i s ⟨hg, hs⟩
      refine hj.unique ⟨h1, fun k hk => ?_⟩
      obtain rfl : k = 0 := by omega
      exact Set.notMem_empty s
    subst hj1
    have hno : ¬ ∃ x, G.str s (e, x) = true ∧ (e, x) ∈ WithinLevel G sp.eg (goodGoal G sp i) (1 - 1) := by
      rintro ⟨x, _, hx⟩
      exact Set.notMem_empty _ hx
    rw [hA2 hno]
    constructor
    · rintro ⟨x, hx⟩; exact Or.inr ⟨x, hx⟩
    · rintro (h | ⟨x, hx⟩)
      · exact absurd hg h
      · exact ⟨x, hx⟩
  · refine ⟨fun _ => Or.inl hg, fun _ => ?_⟩
    by_cases hyes : ∃ x, G.str s (e, x) = true ∧ (e, x) ∈ WithinLevel G sp.eg (goodGoal G sp i) (j - 1)
    · rw [hA1 hyes]; exact hyes
    · rw [hA2 hyes]
      cases j with
      | zero => exact absurd hj.1 (Set.notMem_empty s)
      | succ j =>
        obtain ⟨r, X, hsX, hX⟩ := hj.1
        rcases hX s hsX with h | h | ⟨_, h⟩
        · exact absurd h.1 hg
        · exact absurd (h e he) hyes
        · obtain ⟨x, h1, h2⟩ := h e he
          exact ⟨x, h1, r, X, h2, hX⟩

/-- **C37, partial.** For a winning state that is not a goal state and a legal environment move, with
everything up to date, `sysnext` lists at least one move, and every move listed is legal and leads to a
winning state. Missing for the full claim: goal states, see `sysnext_level1_empty`. -/
theorem sysnext_moves_partial (sp : ISpec ne ns m n) (hm : 0 < m) (hn : 0 < n) (G : Game (Val ne) (Val ns))
    (s : BState ne ns) (e : Val ne) (i : Fin n) (hs : CanWin G sp.eg sp.sg s) (hg : s ∉ sp.sg i)
    (he : G.etr s e = true) (o : IOut) (h : (ACmd.sysnext s e i).Answer sp ⟨G, G, G⟩ o) :
    ∃ l : List (Val ns), o = .rows (l.map vec) ∧ l ≠ [] ∧ l.Nodup ∧
      ∀ x ∈ l, G.str s (e, x) = true ∧ CanWin G sp.eg sp.sg (e, x) := by
  have h1 := (sysnext_nonempty_iff sp hm hn G s e i hs he o h).2 (Or.inl hg)
  obtain ⟨A, ⟨l, rfl, hnd, hl⟩, hA, _⟩ := h
  refine ⟨l, rfl, ?_, hnd, fun x hx => hA x ((hl x).1 hx)⟩
  rintro rfl
  exact h1 rfl

/-- `sysnext` for a losing state reads beyond the array of levels unless there is a move to a winning
state. -/
theorem sysnext_losing_ub (cover : Bdd (2 * (ne + ns)) → List (CubeArr (2 * (ne + ns))))
    (hcov : ∀ f, IsCover f (cover f)) (hm : 0 < m) (hn : 0 < n) {sp : ISpec ne ns m n} {σ : ISess ne ns m n}
    {g : Games ne ns} (h : SessOk sp σ g) (hl : g.win = g.lev) (s : BState ne ns) (e : Val ne) (i : Fin n)
    (hs : ¬ CanWin g.win sp.eg sp.sg s)
    (hno : ∀ x, g.cur.str s (e, x) = true → ¬ CanWin g.win sp.eg sp.sg (e, x)) :
    iStep cover sp σ (ACmd.sysnext s e i).enc = .ub := by
  obtain ⟨hpos, hY, hlast⟩ := h.levels hm hn hl i
  have hlv : (σ.Y i)[(σ.Y i).length - 1]? = some ((σ.Y i)[(σ.Y i).length - 1]) :=
    List.getElem?_eq_getElem (by omega)
  have hscan : scanLevel (σ.Y i) s (σ.Y i).length = (σ.Y i).length := by
    obtain ⟨k, hk⟩ : ∃ k, (σ.Y i).length = k + 1 := ⟨(σ.Y i).length - 1, by omega⟩
    have hk' : (σ.Y i)[k]? = some ((σ.Y i)[k]) := List.getElem?_eq_getElem (by omega)
    rw [hk, scanLevel, hk']
    simp only
    rw [if_neg]
    have := hlast ((σ.Y i)[k]) (by rw [show (σ.Y i).length - 1 = k by omega]; exact hk')
    rw [this, h.mem_win hm hn]
    exact hs
  have hstr : ∀ x, σ.st (joinAsg s (e, x)) = g.cur.str s (e, x) := fun x => by rw [← h.cur]; rfl
  have hd : doSysnext cover σ (stateVec s ++ vec e) i.val = .ub := by
    unfold doSysnext
    rw [dif_pos i.isLt]
    simp only [take_stateVec, stateOf_stateVec, hscan, hlv]
    obtain ⟨l, e1, e2, e3⟩ := stage_lists cover hcov σ s e
      (cuddVarMap (bddOf ((σ.Y i)[(σ.Y i).length - 1]).Y)) _ (stage_none s _)
    have hnil : l = [] := by
      cases l with
      | nil => rfl
      | cons x l =>
        obtain ⟨a, b, _⟩ := (e3 x).1 List.mem_cons_self
        rw [hstr] at a
        exact absurd ((h.mem_win hm hn _).1 b) (hno x a)
    subst hnil
    rw [e1]
    simp only [List.map_nil, ne_eq, not_true_eq_false, if_false, if_pos hpos]
    rw [List.getElem?_eq_none le_rfl]
  simp only [ACmd.enc, iStep, hd]

/-! ## Witnesses -/

namespace IntEx

/-- States with one system bit and no environment variables. -/
def q (b : Bool) : BState 0 1 := (fun _ => false, fun _ => b)

/-- `x' != x`, goal `!x`. -/
def spA : ISpec 0 1 1 1 := ⟨fun _ => true, fun a => a 0 != a 1, fun _ => Finset.univ, fun _ => {q false}⟩

/-- Every move is allowed; environment goals `x` and `!x`, system goal False. -/
def spB : ISpec 0 1 2 1 :=
  ⟨fun _ => true, fun _ => true, fun j => if j.val = 0 then {q true} else {q false}, fun _ => ∅⟩

def gA : Game (Val 0) (Val 1) := bitGame spA.etrans spA.strans
def gB : Game (Val 0) (Val 1) := bitGame spB.etrans spB.strans

theorem winA : winningSet gA spA.eg spA.sg = some Finset.univ := by decide +kernel
theorem winB : winningSet gB spB.eg spB.sg = some Finset.univ := by decide +kernel
theorem levA : ylev gA spA.eg (spA.sg 0 ∩ Finset.univ) 1 = {q false} := by decide +kernel
theorem levB : ylev gB spB.eg (spB.sg 0 ∩ Finset.univ) 1 = Finset.univ := by decide +kernel

theorem canA (s : BState 0 1) : CanWin gA spA.eg spA.sg s :=
  wins_of_mem (by decide) (by decide) winA (Finset.mem_univ s)
theorem canB (s : BState 0 1) : CanWin gB spB.eg spB.sg s :=
  wins_of_mem (by decide) (by decide) winB (Finset.mem_univ s)

theorem goalA (s : BState 0 1) : s ∈ goodGoal gA spA 0 ↔ s ∈ spA.sg 0 ∩ Finset.univ := by
  rw [Finset.mem_inter]; exact ⟨fun h => ⟨h.1, Finset.mem_univ s⟩, fun h => ⟨h.1, canA s⟩⟩
theorem goalB (s : BState 0 1) : s ∈ goodGoal gB spB 0 ↔ s ∈ spB.sg 0 ∩ Finset.univ := by
  rw [Finset.mem_inter]; exact ⟨fun h => ⟨h.1, Finset.mem_univ s⟩, fun h => ⟨h.1, canB s⟩⟩

theorem noPA : NoPrimedSys spA.etrans := fun _ _ _ _ => rfl
theorem noPB : NoPrimedSys spB.etrans := fun _ _ _ _ => rfl

end IntEx

/-- **The claim of C37 fails on goal states.** With one variable, `x' != x` and goal `!x`, `sysnext` lists
nothing in state 0 for every cover, although the move to 1 is legal and every state is winning. -/
theorem sysnext_level1_empty (cover : Bdd (2 * (0 + 1)) → List (CubeArr (2 * (0 + 1))))
    (hcov : ∀ f, IsCover f (cover f)) :
    (∃ σ', iRun cover IntEx.spA (iStart IntEx.spA)
      (.relevels :: [ACmd.sysnext (n := 1) (IntEx.q false) (fun _ => false) 0].map ACmd.enc) =
        .ok (σ', [.nothing, .rows []])) ∧
    IntEx.gA.etr (IntEx.q false) (fun _ => false) = true ∧
    IntEx.gA.str (IntEx.q false) (IntEx.q true) = true ∧
    ∀ s, CanWin IntEx.gA IntEx.spA.eg IntEx.spA.sg s := by
  refine ⟨?_, by decide +kernel, by decide +kernel, IntEx.canA⟩
  obtain ⟨σ', os, hr⟩ := interactive_total cover hcov (by decide) (by decide) (by decide) IntEx.spA IntEx.noPA
    [.sysnext (IntEx.q false) (fun _ => false) 0] ⟨⟨rfl, IntEx.canA _⟩, trivial⟩
  obtain ⟨os', rfl, hans, _⟩ := interactive_session cover hcov (by decide) (by decide) (by decide) IntEx.spA
    IntEx.noPA _ _ _ hr
  refine ⟨σ', ?_⟩
  rw [hr]
  congr 3
  cases os' with
  | nil => exact absurd hans id
  | cons o os' =>
    obtain ⟨h1, h2⟩ := hans
    simp only [Answers] at h2
    subst h2
    congr 1
    by_contra hne
    rcases (sysnext_nonempty_iff IntEx.spA (by decide) (by decide) IntEx.gA (IntEx.q false) (fun _ => false) 0
      (IntEx.canA _) rfl o h1).1 hne with h | ⟨x, hx, hin⟩
    · exact h (by decide +kernel)
    · rw [withinLevel_iff _ _ _ _ IntEx.goalA, IntEx.levA, Finset.mem_singleton] at hin
      have hx0 : x = fun _ => false := congrArg Prod.snd hin
      subst hx0
      exact absurd hx (by decide +kernel)

/-- **Following `sysnext` can lose.** With all moves allowed, environment goals `x` and `!x` and an
unreachable system goal, both states are winning (the system can stay where it is). In both, `sysnext` lists
both moves, and the play alternating between them satisfies every environment goal again and again but never
the system goal. -/
theorem sysnext_following_loses (cover : Bdd (2 * (0 + 1)) → List (CubeArr (2 * (0 + 1))))
    (hcov : ∀ f, IsCover f (cover f)) (π : ℕ → BState 0 1) (hπ : ∀ k, π k = IntEx.q (k % 2 == 1)) :
    (∀ s, CanWin IntEx.gB IntEx.spB.eg IntEx.spB.sg s) ∧
    (∀ k, ∃ σ' l, iRun cover IntEx.spB (iStart IntEx.spB)
        (.relevels :: [ACmd.sysnext (n := 1) (π k) (π (k + 1)).1 0].map ACmd.enc) =
          .ok (σ', [.nothing, .rows l]) ∧ vec (π (k + 1)).2 ∈ l) ∧
    ¬ Live IntEx.spB.eg IntEx.spB.sg π := by
  refine ⟨IntEx.canB, ?_, ?_⟩
  · intro k
    obtain ⟨σ', os, hr⟩ := interactive_total cover hcov (by decide) (by decide) (by decide) IntEx.spB IntEx.noPB
      [.sysnext (π k) (π (k + 1)).1 0] ⟨⟨rfl, IntEx.canB _⟩, trivial⟩
    obtain ⟨os', rfl, hans, _⟩ := interactive_session cover hcov (by decide) (by decide) (by decide) IntEx.spB
      IntEx.noPB _ _ _ hr
    cases os' with
    | nil => exact absurd hans id
    | cons o os' =>
      obtain ⟨h1, h2⟩ := hans
      simp only [Answers] at h2
      subst h2
      obtain ⟨A, ⟨l, rfl, _, hl⟩, _, hA⟩ := h1
      refine ⟨σ', l.map vec, hr, List.mem_map_of_mem ?_⟩
      have hall : ∀ s, s ∈ WithinLevel IntEx.gB IntEx.spB.eg (goodGoal IntEx.gB IntEx.spB 0) 1 := by
        intro s
        rw [withinLevel_iff _ _ _ _ IntEx.goalB, IntEx.levB]
        exact Finset.mem_univ s
      have hidx : IsIndex IntEx.gB IntEx.spB 0 (π k) 1 :=
        ⟨hall _, fun j hj => by obtain rfl : j = 0 := by omega
                                exact Set.notMem_empty _⟩
      have := (hA rfl 1 hidx).2 (by
        rintro ⟨x, _, hx⟩
        exact Set.notMem_empty _ hx)
      rw [hl, this]
      exact ⟨rfl, hall _⟩
  · intro h
    have henv : ∀ j, InfOften π (IntEx.spB.eg j) := by
      intro j N
      have h0 : IntEx.spB.eg 0 = {IntEx.q true} := rfl
      have h1 : IntEx.spB.eg 1 = {IntEx.q false} := rfl
      match j with
      | 0 =>
        refine ⟨2 * N + 1, by omega, ?_⟩
        rw [hπ, h0, show (2 * N + 1) % 2 = 1 by omega]
        exact Finset.mem_singleton_self _
      | 1 =>
        refine ⟨2 * N, by omega, ?_⟩
        rw [hπ, h1, show (2 * N) % 2 = 0 by omega]
        exact Finset.mem_singleton_self _
    obtain ⟨k, _, hk⟩ := h henv 0 0
    exact absurd hk (Finset.notMem_empty _)

/-! ## Examples -/

namespace IntEx

/-- A session: after removing the only edge from 1, refreshing makes state 1 losing; clearing and refreshing
makes it winning again. -/
def script : List (ACmd 0 1 1) :=
  [.winning (q true), .cutS (q true) (q false), .winning (q true), .rewin, .winning (q true), .clear,
    .relevels, .winning (q true), .getindex (q true) 0, .getindex (q false) 0]

theorem script_asks : Asks spA gA ⟨gA, gA, gA⟩ script := by
  refine ⟨trivial, trivial, trivial, trivial, trivial, trivial, trivial, trivial, trivial, trivial, trivial⟩

/-- The hypotheses of the theorems about sessions are met. -/
example : ∃ σ' os, iRun mintermCover spA (iStart spA) (.relevels :: script.map ACmd.enc) = .ok (σ', os) :=
  interactive_total _ mintermCover_isCover (by decide) (by decide) (by decide) spA noPA script script_asks

/-- The answers, computed (these commands do not enumerate cubes). -/
example : (match iRun (fun _ => []) spA (iStart spA) (.relevels :: script.map ACmd.enc) with
    | .ok (_, os) => some os
    | _ => none) = some [.nothing, .truth true, .nothing, .truth true, .nothing, .truth false, .nothing,
      .nothing, .truth true, .index 2, .index 1] := by decide +kernel

/-- A state that is not a goal state, with a legal move. -/
example : CanWin gA spA.eg spA.sg (q true) ∧ q true ∉ spA.sg 0 ∧ gA.etr (q true) (fun _ => false) = true :=
  ⟨canA _, by decide +kernel, rfl⟩

/-- A losing state without any move. -/
def spC : ISpec 0 1 1 1 := ⟨fun _ => true, fun a => !a 0 && !a 1, fun _ => Finset.univ, fun _ => {q false}⟩

example : winningSet (bitGame spC.etrans spC.strans) spC.eg spC.sg = some {q false} := by decide +kernel

/-- Lines as typed, with superfluous blanks and text. -/
example : Numbers ((ACmd.getindex (ne := 0) (ns := 1) (n := 1) (q true) 0).nums ++ [5]) " 1 0 5 x\n".toList := by
  refine .cons [' '] ['1'] 1 _ _ (by unfold Spaces; decide)
    ⟨['1'], by decide, by decide, Or.inr ⟨Or.inl rfl, by decide⟩⟩ (by decide)
    (.cons [' '] ['0'] 0 _ _ (by unfold Spaces; decide)
      ⟨['0'], by decide, by decide, Or.inr ⟨Or.inl rfl, by decide⟩⟩ (by decide)
      (.cons [' '] ['5'] 5 _ _ (by unfold Spaces; decide)
        ⟨['5'], by decide, by decide, Or.inr ⟨Or.inl rfl, by decide⟩⟩ (by decide)
        (.nil " x\n".toList (strtol_none.1 (by decide +kernel)))))

example : parseLine 1 1 2 "getindex 1 0 2\n".toList = .badMode := by decide +kernel
example : parseLine 1 1 2 "sysnext 1 0 1\n".toList = .invalid := by decide +kernel
example : parseLine 1 1 2 "restrict 1 0 1\n".toList = .cmd (.restrict [1, 0, 1]) := by decide +kernel
example : parseLine 1 1 2 "quit\n".toList = .quit := by decide +kernel
example : parseLine 1 1 2 "sysnexta 1 0 1 9\n".toList = .cmd (.sysnexta [1, 0, 1]) := by decide +kernel
/-- Without environment variables `blockenv` is accepted and removes every environment move. -/
example : parseLine 0 1 1 "blockenv \n".toList = .cmd (.blkenv []) := by decide +kernel

end IntEx

end Gr1c
