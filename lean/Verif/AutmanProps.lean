import Verif.AutmanLemmas
import Verif.LoadWell
import Verif.Renumber
import Verif.MainSpin

/-!
# C61: `gr1c-autman`
-/

namespace Gr1c

/-! ## Command line -/

/-- **C61, options.** The loop over the arguments ends with a configuration exactly for command lines (in the loose
spelling), and the configuration is what the command line asks for. Help and version are given exactly when the first
argument that is no part of a command line is `-h` or `-V`. Memory beyond an argument is read exactly when it is `-`, which
the help text documents as a name for standard input. -/
theorem autman_options_exact (args : List Arg) :
    (∀ c, amLoop .default args = .go c ↔ ∃ os, AmItems true os args ∧ c = amMeaning os) ∧
    (amLoop .default args = .help ↔ ∃ os ws rest, AmItems true os ws ∧ args = ws ++ "-h".toList :: rest) ∧
    (amLoop .default args = .version ↔ ∃ os ws rest, AmItems true os ws ∧ args = ws ++ "-V".toList :: rest) ∧
    (amLoop .default args = .ub ↔ ∃ os ws rest, AmItems true os ws ∧ args = ws ++ "-".toList :: rest) := by
  have g1 : ∀ os, AmItems true os args → amLoop .default args = .go (amMeaning os) := fun os h => amLoop_go h
  have g2 : (∃ os ws rest, AmItems true os ws ∧ args = ws ++ ['-', 'h'] :: rest) → amLoop .default args = .help := by
    rintro ⟨os, ws, rest, h1, rfl⟩
    rw [amLoop_items h1, amLoop_short]
    rfl
  have g3 : (∃ os ws rest, AmItems true os ws ∧ args = ws ++ ['-', 'V'] :: rest) → amLoop .default args = .version := by
    rintro ⟨os, ws, rest, h1, rfl⟩
    rw [amLoop_items h1, amLoop_short]
    rfl
  have g4 : (∃ os ws rest, AmItems true os ws ∧ args = ws ++ ['-'] :: rest) → amLoop .default args = .ub := by
    rintro ⟨os, ws, rest, h1, rfl⟩
    rw [amLoop_items h1, amLoop_dash]
  obtain ⟨os, ws, rest, h1, h2, h3⟩ := amLoop_classify args.length args le_rfl
  have h3 : AmItems true os args ∨ (∃ os ws rest, AmItems true os ws ∧ args = ws ++ ['-', 'h'] :: rest) ∨
      (∃ os ws rest, AmItems true os ws ∧ args = ws ++ ['-', 'V'] :: rest) ∨
      (∃ os ws rest, AmItems true os ws ∧ args = ws ++ ['-'] :: rest) ∨ amLoop .default args = .bad := by
    rcases h3 with rfl | ⟨r, rfl⟩ | ⟨r, rfl⟩ | ⟨r, rfl⟩ | h3
    · rw [List.append_nil] at h2
      exact Or.inl (h2 ▸ h1)
    · exact Or.inr (Or.inl ⟨os, ws, r, h1, h2⟩)
    · exact Or.inr (Or.inr (Or.inl ⟨os, ws, r, h1, h2⟩))
    · exact Or.inr (Or.inr (Or.inr (Or.inl ⟨os, ws, r, h1, h2⟩)))
    · refine Or.inr (Or.inr (Or.inr (Or.inr ?_)))
      rw [h2, amLoop_items h1, h3]
  refine ⟨fun c => ⟨fun h => ?_, ?_⟩, ⟨fun h => ?_, g2⟩, ⟨fun h => ?_, g3⟩, ⟨fun h => ?_, g4⟩⟩
  · rcases h3 with h3 | h3 | h3 | h3 | h3
    · have := g1 os h3
      rw [h] at this
      exact ⟨os, h3, AmCli.go.inj this⟩
    · rw [g2 h3] at h; cases h
    · rw [g3 h3] at h; cases h
    · rw [g4 h3] at h; cases h
    · rw [h3] at h; cases h
  · rintro ⟨os, h, rfl⟩; exact g1 os h
  · rcases h3 with h3 | h3 | h3 | h3 | h3
    · rw [g1 os h3] at h; cases h
    · exact h3
    · rw [g3 h3] at h; cases h
    · rw [g4 h3] at h; cases h
    · rw [h3] at h; cases h
  · rcases h3 with h3 | h3 | h3 | h3 | h3
    · rw [g1 os h3] at h; cases h
    · rw [g2 h3] at h; cases h
    · exact h3
    · rw [g4 h3] at h; cases h
    · rw [h3] at h; cases h
  · rcases h3 with h3 | h3 | h3 | h3 | h3
    · rw [g1 os h3] at h; cases h
    · rw [g2 h3] at h; cases h
    · rw [g3 h3] at h; cases h
    · exact h3
    · rw [h3] at h; cases h

example : AmItems false [.spc "s.spc".toList, .input "a.aut".toList, .format .dot, .output "o".toList, .len 3, .verbose true]
    ["-i".toList, "s.spc".toList, "a.aut".toList, "-t".toList, "dot".toList, "-o".toList, "o".toList, "-L".toList, "3".toList,
      "-vv".toList] :=
  .cons (w := ["-i".toList, "s.spc".toList]) (.spc _) (.cons (w := ["a.aut".toList]) (.input _ (by decide))
    (.cons (w := ["-t".toList, "dot".toList]) (.format (w := "dot") [] (Or.inr rfl) (by decide))
      (.cons (w := ["-o".toList, "o".toList]) (.output _)
        (.cons (w := ["-L".toList, "3".toList]) (.len ⟨['3'], by decide, by decide, Or.inr ⟨Or.inl rfl, by decide⟩⟩ (by unfold IsInt; decide))
          (.cons (w := ["-vv".toList]) (.flag (by decide)) .nil)))))

/-! ## A run on a specification and an automaton -/

/-- A command line with `-i FILE`, and the file says `d`. -/
structure AmCalled (w : AmWorld) (args : List Arg) (os : List AmItem) (d : FileData) : Prop where
  items : AmItems false os args
  spec : ∃ f text, (amMeaning os).spc = some f ∧ w.file f = some text ∧ FileSays text d

theorem AmCalled.run {w : AmWorld} {args : List Arg} {os : List AmItem} {d : FileData} (h : AmCalled w args os d) :
    autmanMain w args = amWork w (amMeaning os) (d.evars.length + d.svars.length) d.toP ∧ GoodVars d.evars d.svars := by
  obtain ⟨f, text, h1, h2, h3⟩ := h.spec
  refine ⟨?_, h3.vars⟩
  have hp := h3.parsed.1
  unfold autmanMain
  rw [amLoop_go h.items.loosen]
  simp only [h1, h2, hp]
  rw [show d.toP.ev = d.evars.tree from rfl, show d.toP.sv = d.svars.tree from rfl, varListOf_tree, varListOf_tree]

theorem loaded_aut {l : List LNode} {ver : ℤ} (h : ∀ n ∈ l, (n.initial ≠ none ↔ ver = 0 ∨ ver = 1)) (hv : ver = 0 ∨ ver = 1) :
    loadedAut l = some (l.map (LNode.toANode false)) := by
  unfold loadedAut
  rw [if_pos]
  rw [List.all_eq_true]
  intro n hn
  exact Option.isSome_iff_ne_none.2 ((h n hn).2 hv)

theorem well_aut {len : ℕ} {l : List LNode} (h : WellLoaded len l) :
    ((l.map (LNode.toANode false)).map ANode.id).Nodup ∧
    (∀ n ∈ l.map (LNode.toANode false), ∀ t ∈ n.trans, ∃ m ∈ l.map (LNode.toANode false), m.id = t) ∧
    ∀ n ∈ l.map (LNode.toANode false), n.state.length = len := by
  refine ⟨?_, ?_, ?_⟩
  · have e : (l.map (LNode.toANode false)).map ANode.id = l.map LNode.id := by simp [LNode.toANode, Function.comp_def]
    rw [e]
    exact h.nodup
  · intro n hn t ht
    obtain ⟨x, hx, rfl⟩ := List.mem_map.1 hn
    obtain ⟨m, hm, e⟩ := h.closed x hx t ht
    exact ⟨_, List.mem_map_of_mem hm, e⟩
  · intro n hn
    obtain ⟨x, hx, rfl⟩ := List.mem_map.1 hn
    exact h.length x hx

theorem convert_says {E : JsonEnv} (hE : E.Sane) (hs : E.stamp ≠ none) {ev sv : VarList} (hv : GoodVars ev sv)
    {l : List LNode} (hw : WellLoaded (ev.length + sv.length) l) {fmt : OutFmt}
    (hl : fmt = .tulip ∨ loadedAut l = some (l.map (LNode.toANode false))) :
    ∃ s, amConvert E fmt (ev.length + sv.length) ev sv l = some s ∧ AmSays fmt ev sv (l.map (LNode.toANode false)) s := by
  obtain ⟨k1, k2, k3⟩ := well_aut hw
  have key := written_says hE hs (o := ⟨none, fmt, ev, sv, l.map (LNode.toANode false)⟩) hv k1 k2 k3
  obtain ⟨s, g1, g2⟩ := key
  cases fmt with
  | json =>
    refine ⟨s, ?_, g2⟩
    simp only [writeOut, Option.some.injEq] at g1
    simp only [amConvert, hl.resolve_left (by simp), Option.bind_some, g1]
  | aut =>
    refine ⟨s, ?_, g2⟩
    simp only [writeOut, Option.some.injEq, JsonRes.ok.injEq] at g1
    simp only [amConvert, hl.resolve_left (by simp), Option.map_some, g1]
  | text =>
    refine ⟨s, ?_, g2⟩
    simp only [writeOut, Option.map_eq_some_iff, JsonRes.ok.injEq] at g1
    obtain ⟨a, e1, rfl⟩ := g1
    simp only [amConvert, hl.resolve_left (by simp), Option.bind_some, e1]
  | tulip =>
    refine ⟨s, ?_, g2⟩
    simp only [writeOut, Option.map_eq_some_iff, JsonRes.ok.injEq] at g1
    obtain ⟨a, e1, rfl⟩ := g1
    simp only [amConvert, e1]
  | dot =>
    have hok : DotOk ev sv (l.map (LNode.toANode false)) := by
      refine ⟨k1, k2, k3, ?_⟩
      intro x hx
      have : x ∈ (ev ++ sv).map Prod.fst := by simpa [VarList.names] using hx
      obtain ⟨v, hv', rfl⟩ := List.mem_map.1 this
      exact hv.plain v hv'
    by_cases hlong : ∀ k n, (l.map (LNode.toANode false))[k]? = some n → (nodeLabel false false true ev.names sv.names k n).length < 4094
    · obtain ⟨s, k1, k2, k3, k4⟩ := dot_dump_draws (f := ⟨false, false, true⟩) hok hlong
      refine ⟨s, ?_, ?_⟩
      · simp only [amConvert, hl.resolve_left (by simp), Option.bind_some, k2]
      · exact .inl ⟨hlong, k1, k3, k4⟩
    · simp only [not_forall, not_lt] at hlong
      obtain ⟨k, n, hk, hlen⟩ := hlong
      obtain ⟨s, k1, k2⟩ := dot_dump_long (f := ⟨false, false, true⟩) hok ⟨k, n, hk, hlen⟩
      refine ⟨s, ?_, ?_⟩
      · simp only [amConvert, hl.resolve_left (by simp), Option.bind_some, k1]
      · exact .inr ⟨⟨k, n, hk, hlen⟩, k2⟩

theorem puts_amPut (c : AmCfg) (s : List Char) : Puts (amPut c.output s) c s := by
  constructor
  · intro f hf
    simp only [amPut, hf]
  · intro hf
    simp only [amPut, hf]

theorem canPut_iff {w : AmWorld} {c : AmCfg} (h : w.canPut c) : amOpens w c = true := by
  unfold amOpens
  cases hc : c.output with
  | none => rfl
  | some f => exact h f hc

/-- **C61, conversion.** `gr1c-autman -i SPEC -t TYPE`, for every specification file and every input from which an automaton
is loaded, in version 0 or 1 (or for tulip): the program ends with status 0 after writing, to the requested place, a text
that describes the loaded automaton. -/
theorem autman_convert {w : AmWorld} {args : List Arg} {os : List AmItem} {d : FileData} (h : AmCalled w args os d)
    (hr : (amMeaning os).run = .convert) {text : List Char} (hin : w.given (amMeaning os) = some text)
    {l : List LNode} {ver : ℤ} (hload : loadVer (d.evars.length + d.svars.length) text = .ok l ver)
    (hver : ver = 0 ∨ ver = 1 ∨ (amMeaning os).format = .tulip) (hout : w.canPut (amMeaning os))
    (hE : w.json.Sane) (hs : w.json.stamp ≠ none) :
    ∃ s, Puts (autmanMain w args) (amMeaning os) s ∧
      AmSays (amMeaning os).format d.evars d.svars (l.map (LNode.toANode false)) s := by
  obtain ⟨h1, h2⟩ := h.run
  obtain ⟨-, hw, hi⟩ := load_well hload
  have hnat : ((d.evars.length : ℤ) + d.svars.length).toNat = d.evars.length + d.svars.length := by omega
  rw [hnat] at hw
  obtain ⟨s, k1, k2⟩ := convert_says hE hs h2 hw (fmt := (amMeaning os).format)
    (by
      rcases hver with hv | hv | hv
      · exact Or.inr (loaded_aut hi (Or.inl hv))
      · exact Or.inr (loaded_aut hi (Or.inr hv))
      · exact Or.inl hv)
  refine ⟨s, ?_, k2⟩
  rw [h1]
  unfold amWork
  rw [show amSource w (amMeaning os) = some text from hin]
  simp only [hload, canPut_iff hout, if_true, hr, hnat]
  rw [show d.toP.ev = d.evars.tree from rfl, show d.toP.sv = d.svars.tree from rfl, varListOf_tree, varListOf_tree, k1]
  exact puts_amPut _ s

/-- The automaton loaded from a file whose lines are in the order of their IDs is what the file says. -/
theorem load_in_order_aut {ver len : ℕ} (hv : ver = 0 ∨ ver = 1) (hl : 1 ≤ len) {rs : List FileNode} {s : List Char}
    (h : AutFile ver rs s) (hr : ∀ r ∈ rs, r.Ok ver len) (hne : rs ≠ []) (hid : rs.map FileNode.id = List.range rs.length)
    (htr : ∀ r ∈ rs, ∀ t ∈ r.trans, t < rs.length) :
    ∃ l, loadVer len s = .ok l ver ∧ l.map (LNode.toANode false) = fileAut rs := by
  obtain ⟨l, h1, h2, -, h3⟩ := load_in_order_partial hv hl h hr hne hid htr
  refine ⟨l, h1, ?_⟩
  have hids : ∀ (t : ℕ) (n : LNode), l[t]? = some n → n.id = t := by
    intro t n hn
    rw [load_read hv hl h hr hne] at h1
    obtain ⟨-, new, e1, e2, e3⟩ := linkLoop_inv _ _ _ _ _ h1
    rw [List.nil_append] at e1
    subst e1
    have hlt : t < rs.length := e2 ▸ (List.getElem?_eq_some_iff.1 hn).1
    obtain ⟨g, -, -⟩ := e3 t n hn
    rw [Nat.zero_add, findLine_rec rs (by rw [hid]; exact List.mem_range.2 hlt)] at g
    unfold lineOf at g
    rw [hid] at g
    have : (List.range rs.length).idxOf t = t := by
      have := List.nodup_range.idxOf_getElem (xs := List.range rs.length) t (by simpa using hlt)
      simpa using this
    rw [this] at g
    exact (Option.some.inj g).symm
  refine List.ext_getElem? fun k => ?_
  simp only [fileAut, List.getElem?_map]
  cases hk : rs[k]? with
  | none =>
    have : l[k]? = none := by
      rw [List.getElem?_eq_none_iff] at hk ⊢
      omega
    rw [this]
    rfl
  | some r =>
    have hrid : r.id = k := by
      have := congrArg (·[k]?) hid
      obtain ⟨hlt, e⟩ := List.getElem?_eq_some_iff.1 hk
      rw [← e]
      simpa [hlt] using this
    obtain ⟨n, g1, g2, g3, g4, g5, g6⟩ := h3 r (List.mem_of_getElem? hk)
    rw [hrid] at g1
    rw [g1]
    have ht : n.trans = r.trans := by
      have : r.trans.map (fun t => (l[t]?).map LNode.id) = r.trans.map some := by
        refine List.map_congr_left fun t ht => ?_
        have hlt : t < l.length := h2 ▸ htr r (List.mem_of_getElem? hk) t ht
        rw [List.getElem?_eq_getElem hlt]
        simp only [Option.map_some, Option.some.injEq]
        exact hids t _ (List.getElem?_eq_getElem hlt)
      rw [this] at g6
      exact List.map_injective_iff.2 (Option.some_injective _) g6
    simp only [Option.map_some, LNode.toANode, g2, g3, g4, g5, ht, hids k n g1, Option.getD_some, hrid]

/-- **C61, conversion of documented files.** If the input is a file of the documented automaton format with its lines in the
order of their IDs, the text written describes the automaton of the file. (For lines in another order see C26.) -/
theorem autman_converts_file {w : AmWorld} {args : List Arg} {os : List AmItem} {d : FileData} (h : AmCalled w args os d)
    (hr : (amMeaning os).run = .convert) {text : List Char} (hin : w.given (amMeaning os) = some text)
    {ver : ℕ} {rs : List FileNode} (hv : ver = 0 ∨ ver = 1) (hd : d.evars ++ d.svars ≠ []) (hf : AutFile ver rs text)
    (hok : ∀ r ∈ rs, r.Ok ver (d.evars.length + d.svars.length)) (hne : rs ≠ [])
    (hid : rs.map FileNode.id = List.range rs.length) (htr : ∀ r ∈ rs, ∀ t ∈ r.trans, t < rs.length)
    (hout : w.canPut (amMeaning os)) (hE : w.json.Sane) (hs : w.json.stamp ≠ none) :
    ∃ s, Puts (autmanMain w args) (amMeaning os) s ∧ AmSays (amMeaning os).format d.evars d.svars (fileAut rs) s := by
  have hlen : 1 ≤ d.evars.length + d.svars.length := by
    rw [← List.length_append]
    exact List.length_pos_iff.2 hd
  obtain ⟨l, h1, h2⟩ := load_in_order_aut hv hlen hf hok hne hid htr
  rw [← h2]
  refine autman_convert h hr hin (ver := ver) (by exact_mod_cast h1) ?_ hout hE hs
  rcases hv with rfl | rfl
  · exact Or.inl rfl
  · exact Or.inr (Or.inl rfl)

/-! ## Syntax check -/

/-- **C61, syntax check.** `gr1c-autman` with `-i SPEC` or `-L N`, and neither `-t` nor `-P`: for a file of the documented format
with its lines in the order of their IDs it prints the version and ends with status 0. (A file named with `-o` is left empty.) -/
theorem autman_syntax {w : AmWorld} {args : List Arg} {os : List AmItem} (hos : AmItems false os args) {len : ℕ}
    (hlen : (∃ d, AmCalled w args os d ∧ len = d.evars.length + d.svars.length) ∨
      ((amMeaning os).spc = none ∧ (amMeaning os).len = len)) (h1 : 1 ≤ len)
    (hr : (amMeaning os).run = .syntaxOnly) {text : List Char} (hin : w.given (amMeaning os) = some text)
    {ver : ℕ} {rs : List FileNode} (hv : ver = 0 ∨ ver = 1) (hf : AutFile ver rs text)
    (hok : ∀ r ∈ rs, r.Ok ver len) (hne : rs ≠ [])
    (hid : rs.map FileNode.id = List.range rs.length) (htr : ∀ r ∈ rs, ∀ t ∈ r.trans, t < rs.length)
    (hout : w.canPut (amMeaning os)) :
    autmanMain w args = .exit 0 (if ver = 0 then "0\n".toList else "1\n".toList) ((amMeaning os).output.map fun f => (f, [])) := by
  obtain ⟨l, h2, -⟩ := load_in_order_aut hv h1 hf hok hne hid htr
  have hwork : ∀ p, amWork w (amMeaning os) len p = .exit 0 (printInt ver ++ ['\n']) ((amMeaning os).output.map fun f => (f, [])) := by
    intro p
    unfold amWork
    rw [show amSource w (amMeaning os) = some text from hin]
    simp only [h2, canPut_iff hout, if_true, hr]
  have e : printInt ver ++ ['\n'] = if ver = 0 then "0\n".toList else "1\n".toList := by
    rcases hv with rfl | rfl <;> decide +kernel
  rw [← e]
  rcases hlen with ⟨d, hd, rfl⟩ | ⟨g1, g2⟩
  · refine hd.run.1.trans ?_
    exact_mod_cast hwork d.toP
  · unfold autmanMain
    rw [amLoop_go hos.loosen]
    simp only [g1, g2, hr]
    rw [if_neg (by simp; omega)]
    exact hwork .init

/-! ## Without a specification -/

/-- **C61, conversion with `-L N`.** For the formats txt and aut no specification is needed. -/
theorem autman_convert_len {w : AmWorld} {args : List Arg} {os : List AmItem} (hos : AmItems false os args) {len : ℕ}
    (hspc : (amMeaning os).spc = none) (hlen : (amMeaning os).len = len) (hr : (amMeaning os).run = .convert)
    (hfmt : (amMeaning os).format = .text ∨ (amMeaning os).format = .aut)
    {text : List Char} (hin : w.given (amMeaning os) = some text) {l : List LNode} {ver : ℤ}
    (hload : loadVer len text = .ok l ver) (hver : ver = 0 ∨ ver = 1) (hout : w.canPut (amMeaning os)) :
    ∃ s, Puts (autmanMain w args) (amMeaning os) s ∧
      ((amMeaning os).format = .text → ∃ ls, readTxt s = some ls ∧ TxtSays (l.map (LNode.toANode false)) ls) ∧
      ((amMeaning os).format = .aut → l.length ≤ 2 ^ 31 →
        (∀ (i : ℕ) n, (l.map (LNode.toANode false))[i]? = some n → (nodeText 1 (l.map (LNode.toANode false)) i n).length < 4095) →
        ∃ l', loadVer len s = .ok l' 1 ∧ SameAut 1 (l.map (LNode.toANode false)) l') := by
  obtain ⟨hl1, hw, hi⟩ := load_well hload
  rw [Int.toNat_natCast] at hw
  obtain ⟨k1, k2, k3⟩ := well_aut hw
  have hla := loaded_aut hi hver
  have hmain : ∀ s, amConvert w.json (amMeaning os).format len [] [] l = some s → Puts (autmanMain w args) (amMeaning os) s := by
    intro s hs
    unfold autmanMain
    rw [amLoop_go hos.loosen]
    simp only [hspc, hlen, hr]
    rw [if_neg (by rcases hfmt with e | e <;> rw [e] <;> simp [OutFmt.needsSpec] <;> omega)]
    unfold amWork
    rw [show amSource w (amMeaning os) = some text from hin]
    simp only [hload, canPut_iff hout, if_true, hr, Int.toNat_natCast]
    rw [show varListOf PState.init.ev = [] from rfl, show varListOf PState.init.sv = [] from rfl, hs]
    exact puts_amPut _ s
  rcases hfmt with e | e
  · obtain ⟨s, ls, g1, g2, g3⟩ := txt_dump_says k1 k2 k3
    refine ⟨s, hmain s ?_, fun _ => ⟨ls, g2, g3⟩, fun h => (by rw [e] at h; cases h)⟩
    rw [e]
    simp only [amConvert, hla, Option.bind_some, g1]
  · refine ⟨(dumpVer (l.map (LNode.toANode false)) 1).2, hmain _ ?_, fun h => (by rw [e] at h; cases h), fun _ h2 h4 => ?_⟩
    · rw [e]
      simp only [amConvert, hla, Option.map_some]
    · have hg : GoodAut len (l.map (LNode.toANode false)) := by
        refine ⟨k1, k2, k3, by simpa using h2, ?_⟩
        intro n hn
        obtain ⟨x, hx, rfl⟩ := List.mem_map.1 hn
        exact hw.ints x hx
      obtain ⟨l', -, e2, e3⟩ := dump_load (ver := 1) (Or.inr rfl) (by omega) hg (by simpa using hw.nonempty) h4
      exact ⟨l', e2, e3⟩

/-! ## The Promela model -/

/-- Where the model goes, and the formula beside it if there is an output file. -/
def PutsModel (r : AmRes) (c : AmCfg) (s : List Char) (φ : Ltl) : Prop :=
  (∀ f, c.output = some f → ∃ w, r = .exit 0 w (some (f, s)) ∧ LtlText w φ) ∧ (c.output = none → r = .exit 0 s none)

theorem model_puts {w : AmWorld} {args : List Arg} {os : List AmItem} {d : FileData} (h : AmCalled w args os d)
    (hr : (amMeaning os).run = .model) {text : List Char} (hin : w.given (amMeaning os) = some text)
    {l : List LNode} {ver : ℤ} (hload : loadVer (d.evars.length + d.svars.length) text = .ok l ver) (hver : ver = 0 ∨ ver = 1)
    (hout : w.canPut (amMeaning os)) {s : List Char} {φ : Ltl}
    (hs : spinDump gr1cVersion w.fuel d.evars d.svars d.sp.toT (l.map (LNode.toANode false)) = some s)
    (hφ : LtlText (formulaText d.evars d.sp) φ) : PutsModel (autmanMain w args) (amMeaning os) s φ := by
  obtain ⟨-, -, hi⟩ := load_well hload
  have hform : spinLtl d.evars.length (decide (d.toP.sp.einit ≠ .nil)) (decide (d.toP.sp.sinit ≠ .nil)) d.toP.sp.egoals.length
      d.toP.sp.sgoals.length = formulaText d.evars d.sp := by
    have key : ∀ o : Option Fm, decide (optTree o ≠ .nil) = o.isSome := by
      intro o
      rw [Bool.eq_iff_iff, decide_eq_true_iff, Ne, optTree_nil_iff, Option.isSome_iff_ne_none]
    unfold formulaText
    rw [show d.toP.sp.einit = optTree d.sp.einit from rfl, show d.toP.sp.sinit = optTree d.sp.sinit from rfl, key, key]
    simp [FileData.toP, FSpec.toT]
  rw [h.run.1]
  unfold amWork
  rw [show amSource w (amMeaning os) = some text from hin]
  simp only [hload, canPut_iff hout, if_true, hr, loaded_aut hi hver, Option.bind_some]
  rw [show d.toP.ev = d.evars.tree from rfl, show d.toP.sv = d.svars.tree from rfl, varListOf_tree, varListOf_tree,
    show d.toP.sp = d.sp.toT from rfl, hs]
  constructor
  · intro f hf
    simp only [hf]
    exact ⟨_, rfl, by rw [show d.sp.toT = d.toP.sp from rfl, hform]; exact hφ⟩
  · intro hf
    simp only [hf]

/-- **C61, C58.** `gr1c-autman -P -i SPEC`, for every specification file whose formulas are about declared variables and
every input from which an automaton over the declared values with an initial node is loaded: the program ends with status 0
after writing a Promela file with a formula; with `-o` the formula is printed to standard output too. The formula holds for the
program in the file if and only if on all plays of the loaded automaton, from its first initial node, the assumptions imply
the guarantees and every move is answered. -/
theorem autman_model {w : AmWorld} {args : List Arg} {os : List AmItem} {d : FileData} (h : AmCalled w args os d)
    (hr : (amMeaning os).run = .model) {text : List Char} (hin : w.given (amMeaning os) = some text)
    {l : List LNode} {ver : ℤ} (hload : loadVer (d.evars.length + d.svars.length) text = .ok l ver) (hver : ver = 0 ∨ ver = 1)
    (hout : w.canPut (amMeaning os)) (hsv : SpinVars d.evars d.svars) (hty : TypedSpec d.evars d.svars d.sp)
    {st : Aut ℤ (IState d.evars d.svars)} (hst : l.map (LNode.toANode false) = withStates stateValues st)
    (hini : ∃ x ∈ st, x.initial = true) (hfuel : (allMoves d.evars).length ≤ w.fuel) :
    ∃ s ms P φ, PutsModel (autmanMain w args) (amMeaning os) s φ ∧ SpinReads s ms P φ ∧
      ∀ fine, (PVerifies P fine ms φ ↔ ∀ b m, IsPlay st b m → (d.evars ≠ [] → EnvSeen fine d.sp fun r => (b r).s) →
        (SysSeen fine d.sp fun r => (b r).s) ∧ ∀ r, (b r).bad = false) := by
  obtain ⟨hl1, hw, -⟩ := load_well hload
  obtain ⟨k1, k2, -⟩ := well_aut hw
  rw [hst] at k1 k2
  obtain ⟨_, _, -, -, h3⟩ := h.spec
  obtain ⟨s, ms, P, φ, g1, g2, g3, g4⟩ := spin_verdict hsv hty h3.parsedSpec (st := st)
    (by simpa [withStates, Function.comp_def] using k1)
    (by
      intro x hx j hj
      obtain ⟨m, hm, e⟩ := k2 _ (List.mem_map_of_mem hx) j hj
      obtain ⟨y, hy, rfl⟩ := List.mem_map.1 hm
      exact ⟨y, hy, e⟩)
    hini
    (by
      intro h0
      rw [← List.length_eq_zero_iff, List.length_append] at h0
      omega)
    (ver := gr1cVersion) (by decide) hfuel
  refine ⟨s, ms, P, φ, model_puts h hr hin hload hver hout ?_ g3, g2, g4⟩
  rw [hst]
  exact g1

/-! ## From synthesis to verification -/

/-- The automaton fits into a file of the automaton format: numbers are of type `int`, and no line has 4095 characters. -/
structure AutFits (a : Aut ℤ (List ℤ)) : Prop where
  small : a.length ≤ 2 ^ 31
  ints : ∀ n ∈ a, (∀ v ∈ n.state, IsInt v) ∧ IsInt n.mode ∧ IsInt n.rgrad
  short : ∀ (i : ℕ) n, a[i]? = some n → (nodeText 1 a i n).length < 4095

/-- **C61, C58, C53: the workflow of `/repo/doc/verification.md`.** `gr1c -t aut` on a realizable specification with an initial
state ends with status 0 after writing a text; if the strategy fits into the format, then `gr1c-autman -P -i` with the same
specification and this text as input ends with status 0 after writing a Promela file with a formula that holds for the
program in it, for all executions, if intermediate states of `atomic` are not considered or every goal has one variable. -/
theorem verify_workflow {w : World} {args : List Arg} {os : List Opt} {f : Option Arg} {d : FileData}
    (h : RunsOn w args os f d) (hg : GoodSpec d (meaning os f).init) (hr : (meaning os f).run = .synthesis)
    (hfmt : (meaning os f).format = .aut)
    (hv : SpecRealizable d.evars d.svars (meaning os f).init d.sp)
    (hi : SpecHasInit d.evars d.svars (meaning os f).init d.sp)
    (hp : PfxFree (d.evars ++ d.svars)) (hI : IntDecls (d.evars ++ d.svars))
    (hw : w.Sensible) (henv : d.evars = [] → (∀ f ∈ d.sp.etrans, f = .const 1) ∧ d.sp.egoals = [])
    (hfuel : synthBound d.evars d.svars d.sp ≤ w.fuel) (hout : w.canOutput (meaning os f))
    (hsv : SpinVars d.evars d.svars) (hne : d.evars ++ d.svars ≠ []) {E : JsonEnv} (hE : E.Sane) (hs : E.stamp ≠ none) :
    ∃ (st : Aut ℤ (IState d.evars d.svars)) (o : Output) (s : List Char),
      SpecStrategy d.evars d.svars (meaning os f).init d.sp st ∧ gr1cMain w args = .exit 0 (some o) ∧
      o.dest = (meaning os f).output ∧ writeOut E o = some (.ok s) ∧
      (AutFits (withStates stateValues st) → ∀ (w' : AmWorld) (args' : List Arg) (os' : List AmItem), AmCalled w' args' os' d →
        (amMeaning os').run = .model → w'.given (amMeaning os') = some s → w'.canPut (amMeaning os') →
        (allMoves d.evars).length ≤ w'.fuel →
        ∃ text ms P φ, PutsModel (autmanMain w' args') (amMeaning os') text φ ∧ SpinReads text ms P φ ∧
          ∀ fine, (fine = false ∨ ∀ f ∈ d.sp.egoals ++ d.sp.sgoals, OneVar f) → PVerifies P fine ms φ) := by
  have henv' : d.evars ≠ [] ∨ ∀ f ∈ d.sp.etrans, f = .const 1 := by
    by_cases he : d.evars = []
    · exact Or.inr (henv he).1
    · exact Or.inl he
  obtain ⟨st, o, s, h1, h2, h3, h4, h5, h6⟩ := main_writes h hg hr hv hi hp hI hw henv' hfuel hout hE hs
  refine ⟨st, o, s, h1, h3, h4, h5, fun hfit w' args' os' hc hr' hin hout' hfuel' => ?_⟩
  rw [hfmt] at h6
  have hflag : (meaning os f).init ≠ .undefined := by
    intro h
    unfold SpecRealizable at hv
    rw [h] at hv
    exact hv
  obtain ⟨x0, hx0, hini⟩ := h2
  obtain ⟨l, hload, hsame⟩ := h6
    (by
      intro h0
      have : st = [] := List.map_eq_nil_iff.1 h0
      rw [this] at hx0
      cases hx0)
    hne hfit.small hfit.ints hfit.short
  obtain ⟨-, hwell, -⟩ := load_well hload
  have hpl := sameAut_places hsame
  have hlist := sameAut_reloaded hsame
  have haut : l.map (LNode.toANode false) = withStates stateValues (reloaded st l) := by
    conv_lhs => rw [hlist]
    rw [List.map_map]
    have : (LNode.toANode false ∘ fun n : ANode ℤ (List ℤ) => (⟨n.id, n.state, some n.initial, n.mode, n.rgrad, n.trans⟩ : LNode)) = id := by
      funext n
      rfl
    rw [this, List.map_id]
  obtain ⟨k1, k2, -⟩ := well_aut hwell
  rw [haut] at k1 k2
  have hst' : SpecStrategy d.evars d.svars (meaning os f).init d.sp (reloaded st l) :=
    StrategyFor.renumber h1 hpl (by simpa [withStates, Function.comp_def] using k1)
      (by
        intro x hx j hj
        obtain ⟨m, hm, e⟩ := k2 _ (List.mem_map_of_mem hx) j hj
        obtain ⟨y, hy, rfl⟩ := List.mem_map.1 hm
        exact ⟨y, hy, e⟩)
  obtain ⟨_, _, -, -, hsays⟩ := hc.spec
  obtain ⟨k, x', -, -, hx', -, e'⟩ := hpl.copy hx0
  obtain ⟨text, ms, P, φ, g1, g2, g3, g4⟩ := spin_accepts hsv hg.typed hsays.parsedSpec hflag hst'
    ⟨x', hx', e'.trans hini⟩ hne henv (ver := gr1cVersion) (by decide) hfuel'
  refine ⟨text, ms, P, φ, model_puts hc hr' hin hload (Or.inr rfl) hout' ?_ g3, g2, g4⟩
  rw [haut]
  exact g1

/-! ## Statuses -/

/-- The statuses are -1 to 3, and nothing is written unless the status is 0. -/
theorem autman_statuses {w : AmWorld} {args : List Arg} {s : ℤ} {out : List Char} {file : Option (Arg × List Char)}
    (h : autmanMain w args = .exit s out file) :
    (s = -1 ∨ s = 0 ∨ s = 1 ∨ s = 2 ∨ s = 3) ∧ (s ≠ 0 → out = [] ∧ file = none) := by
  have key : ∀ c len p, amWork w c len p = .exit s out file → (s = -1 ∨ s = 0 ∨ s = 3) ∧ (s ≠ 0 → out = [] ∧ file = none) := by
    intro c len p h
    unfold amWork at h
    split at h
    · cases h; simp
    · split at h
      · cases h
      · cases h; simp
      · split at h
        · split at h
          · cases h; simp
          · split at h
            · unfold amPut at h
              split at h <;> cases h <;> simp
            · cases h
          · split at h
            · split at h <;> cases h <;> simp
            · cases h
        · cases h; simp
  unfold autmanMain at h
  split at h
  · cases h
  · cases h
  · cases h
  · cases h; simp
  · split at h
    · split at h
      · cases h; simp
      · obtain ⟨k1, k2⟩ := key _ _ _ h
        exact ⟨by omega, k2⟩
    · split at h
      · cases h; simp
      · split at h
        · cases h; simp
        · obtain ⟨k1, k2⟩ := key _ _ _ h
          exact ⟨by omega, k2⟩

/-- **C61, status 1.** Exactly for an argument vector that neither is a command line nor leads to `-h`, `-V` or `-`, and for a
command line without a specification that needs one, or that declares no positive length of states. -/
theorem autman_one (w : AmWorld) (args : List Arg) :
    autmanMain w args = .exit 1 [] none ↔
      ((¬ ∃ os, AmItems true os args) ∧
        ¬ ∃ os ws x rest, AmItems true os ws ∧ args = ws ++ x :: rest ∧ x ∈ ["-h".toList, "-V".toList, "-".toList]) ∨
      ∃ os, AmItems true os args ∧ (amMeaning os).spc = none ∧ ((amMeaning os).run = .model ∨
        ((amMeaning os).run = .convert ∧ (amMeaning os).format ∉ [.text, .aut]) ∨ (amMeaning os).len < 1) := by
  obtain ⟨e1, e2, e3, e4⟩ := autman_options_exact args
  have hneeds : ∀ f : OutFmt, f.needsSpec = true ↔ f ∉ [OutFmt.text, .aut] := by
    intro f
    cases f <;> decide
  have hwork : ∀ c len p, amWork w c len p ≠ .exit 1 [] none := by
    intro c len p h
    unfold amWork at h
    split at h
    · cases h
    · split at h
      · cases h
      · cases h
      · split at h
        · split at h
          · cases h
          · split at h
            · unfold amPut at h
              split at h <;> cases h
            · cases h
          · split at h
            · split at h <;> cases h
            · cases h
        · cases h
  have hgo : ∀ os, AmItems true os args → (autmanMain w args = .exit 1 [] none ↔ (amMeaning os).spc = none ∧
      ((amMeaning os).run = .model ∨ ((amMeaning os).run = .convert ∧ (amMeaning os).format ∉ [.text, .aut]) ∨
        (amMeaning os).len < 1)) := by
    intro os h
    unfold autmanMain
    rw [amLoop_go h, ← hneeds]
    cases hs : (amMeaning os).spc with
    | none =>
      simp only [hs, true_and]
      split
      · rename_i hc
        exact ⟨fun _ => hc, fun _ => rfl⟩
      · rename_i hc
        exact ⟨fun h => absurd h (hwork _ _ _), fun h => absurd h hc⟩
    | some f =>
      simp only [hs, reduceCtorEq, false_and, iff_false]
      split
      · simp
      · split
        · simp
        · exact hwork _ _ _
  by_cases hi : ∃ os, AmItems true os args
  · obtain ⟨os, h⟩ := hi
    rw [hgo os h]
    constructor
    · intro k
      exact Or.inr ⟨os, h, k⟩
    · rintro (⟨k, -⟩ | ⟨os', h', k⟩)
      · exact absurd ⟨os, h⟩ k
      · exact (hgo os h).1 ((hgo os' h').2 k)
  · have h2 : ¬ ∃ os, AmItems true os args ∧ (amMeaning os).spc = none ∧ ((amMeaning os).run = .model ∨
        ((amMeaning os).run = .convert ∧ (amMeaning os).format ∉ [.text, .aut]) ∨ (amMeaning os).len < 1) := by
      rintro ⟨os, h, -⟩
      exact hi ⟨os, h⟩
    simp only [h2, or_false, hi, not_false_iff, true_and]
    unfold autmanMain
    cases hl : amLoop .default args with
    | ub =>
      obtain ⟨os, ws, rest, k1, k2⟩ := e4.1 hl
      simp only [reduceCtorEq, false_iff, not_not]
      exact ⟨os, ws, _, rest, k1, k2, by simp⟩
    | help =>
      obtain ⟨os, ws, rest, k1, k2⟩ := e2.1 hl
      simp only [reduceCtorEq, false_iff, not_not]
      exact ⟨os, ws, _, rest, k1, k2, by simp⟩
    | version =>
      obtain ⟨os, ws, rest, k1, k2⟩ := e3.1 hl
      simp only [reduceCtorEq, false_iff, not_not]
      exact ⟨os, ws, _, rest, k1, k2, by simp⟩
    | bad =>
      simp only [true_iff]
      rintro ⟨os, ws, x, rest, k1, k2, k3⟩
      simp only [List.mem_cons, List.not_mem_nil, or_false] at k3
      rcases k3 with rfl | rfl | rfl
      · rw [e2.2 ⟨os, ws, rest, k1, k2⟩] at hl; cases hl
      · rw [e3.2 ⟨os, ws, rest, k1, k2⟩] at hl; cases hl
      · rw [e4.2 ⟨os, ws, rest, k1, k2⟩] at hl; cases hl
    | go c =>
      obtain ⟨os, k, -⟩ := (e1 c).1 hl
      exact absurd ⟨os, k⟩ hi

/-- **C61, status 2.** With `-i FILE`, for a text in the file with given tokens the first of which begins a section: the status
is 2 exactly when the tokens are not a specification file. What the specification says about variables is not examined
(compare `main_rejects`). -/
theorem autman_two {w : AmWorld} {args : List Arg} {os : List AmItem} (hos : AmItems false os args) {f : Arg} {text : List Char}
    (h1 : (amMeaning os).spc = some f) (h2 : w.file f = some text) {t : Tok} {ts : List Tok} (hl : Layout true (t :: ts) text)
    (ht : isHeader t = true) :
    autmanMain w args = .exit 2 [] none ↔ ¬ ∃ ss d, FileToks false ss (t :: ts) ∧ readSecs .empty ss = some d := by
  have hpt : parseFile false text = parseToks false (t :: ts) := by
    unfold parseFile lexFile
    rw [layout_scanned hl]
  unfold autmanMain
  rw [amLoop_go hos.loosen]
  simp only [h1, h2, hpt]
  cases hp : parseToks false (t :: ts) with
  | none =>
    simp only [true_iff]
    rintro ⟨ss, d, k1, k2⟩
    have := (file_accepted ht _).2 ⟨ss, d, k1, k2, rfl⟩
    rw [hp] at this
    cases this
  | some p =>
    obtain ⟨ss, d, k1, k2, -⟩ := (file_accepted ht p).1 hp
    simp only
    constructor
    · intro h
      exfalso
      unfold amWork at h
      split at h
      · cases h
      · split at h
        · cases h
        · cases h
        · split at h
          · split at h
            · cases h
            · split at h
              · unfold amPut at h
                split at h <;> cases h
              · cases h
            · split at h
              · split at h <;> cases h
              · cases h
          · cases h
    · intro h
      exact absurd ⟨ss, d, k1, k2⟩ h

/-- **C61, statuses 3 and -1.** With a specification that is read: status 3 exactly when the input can be read and no automaton
is loaded from it; status -1 exactly when the input cannot be read, or an automaton is loaded and the output cannot be opened.
The syntax check `-s` is not different: contrary to the help text, -1 is not printed. -/
theorem autman_three {w : AmWorld} {args : List Arg} {os : List AmItem} {d : FileData} (h : AmCalled w args os d) :
    (autmanMain w args = .exit 3 [] none ↔ ∃ text, w.given (amMeaning os) = some text ∧
      loadVer (d.evars.length + d.svars.length) text = .null) ∧
    (autmanMain w args = .exit (-1) [] none ↔ w.given (amMeaning os) = none ∨ ∃ text l ver, w.given (amMeaning os) = some text ∧
      loadVer (d.evars.length + d.svars.length) text = .ok l ver ∧ ¬ w.canPut (amMeaning os)) := by
  rw [h.run.1]
  unfold amWork
  rw [show amSource w (amMeaning os) = w.given (amMeaning os) from rfl]
  cases hg : w.given (amMeaning os) with
  | none => simp
  | some text =>
    simp only [reduceCtorEq, Option.some.injEq, exists_eq_left', false_or]
    have e : (∃ (t : List Char) (l : List LNode) (ver : ℤ), text = t ∧
        loadVer (d.evars.length + d.svars.length) t = .ok l ver ∧ ¬ w.canPut (amMeaning os)) ↔
        ∃ (l : List LNode) (ver : ℤ), loadVer (d.evars.length + d.svars.length) text = .ok l ver ∧ ¬ w.canPut (amMeaning os) := by
      constructor
      · rintro ⟨t, l, v, rfl, k⟩
        exact ⟨l, v, k⟩
      · rintro ⟨l, v, k⟩
        exact ⟨text, l, v, rfl, k⟩
    rw [e]
    cases hL : loadVer (d.evars.length + d.svars.length) text with
    | ub => simp
    | null => simp
    | ok l ver =>
      simp only [reduceCtorEq, iff_false]
      by_cases hc : w.canPut (amMeaning os)
      · simp only [canPut_iff hc, if_true, hc, not_true, and_false, exists_false, iff_false]
        constructor
        all_goals
          intro h
          split at h
          · cases h
          · split at h
            · unfold amPut at h
              split at h <;> cases h
            · cases h
          · split at h
            · split at h <;> cases h
            · cases h
      · have : amOpens w (amMeaning os) = false := by
          rw [← Bool.not_eq_true]
          intro ht
          apply hc
          intro f hf
          unfold amOpens at ht
          simpa only [hf] using ht
        simp [this, hc]


end Gr1c
