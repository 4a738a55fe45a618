import Verif.CTextProps

/-!
# Specification: JSON (RFC 8259)

Values and their texts. A number is kept as it is written; `JNumber` is the grammar of RFC 8259, section 6.
Strings are lists of characters; of the escapes `\uXXXX` those for surrogates are left out.
-/

namespace Gr1c

/-- A JSON value. -/
inductive JVal
  | null
  | bool (b : Bool)
  | num (w : List Char)
  | str (x : List Char)
  | arr (vs : List JVal)
  | obj (ms : List (List Char × JVal))

/-- White space of JSON. -/
def isJWs (c : Char) : Bool := c == ' ' || c == '\t' || c == '\n' || c == '\r'

def JWs (s : List Char) : Prop := ∀ c ∈ s, isJWs c = true

/-- One or more digits. -/
def JDigits (w : List Char) : Prop := w ≠ [] ∧ ∀ c ∈ w, isDig c = true

/-- `int`: zero, or digits not beginning with zero. -/
def JInt (w : List Char) : Prop := w = ['0'] ∨ (JDigits w ∧ w.head? ≠ some '0')

/-- `[ frac ]`. -/
def JFrac (w : List Char) : Prop := w = [] ∨ ∃ ds, w = '.' :: ds ∧ JDigits ds

/-- `[ exp ]`. -/
def JExp (w : List Char) : Prop :=
  w = [] ∨ ∃ e sg ds, (e = 'e' ∨ e = 'E') ∧ (sg = [] ∨ sg = ['-'] ∨ sg = ['+']) ∧ JDigits ds ∧ w = e :: (sg ++ ds)

/-- `number = [ minus ] int [ frac ] [ exp ]`. -/
def JNumber (w : List Char) : Prop :=
  ∃ m i f e, (m = [] ∨ m = ['-']) ∧ JInt i ∧ JFrac f ∧ JExp e ∧ w = m ++ (i ++ (f ++ e))

/-- Escaped characters and what they stand for. -/
def jEscapes : List (Char × Char) :=
  [('"', '"'), ('\\', '\\'), ('/', '/'), ('b', Char.ofNat 8), ('f', Char.ofNat 12), ('n', '\n'), ('r', '\r'), ('t', '\t')]

/-- Value of a hexadecimal digit. -/
def hexVal (c : Char) : Option ℕ :=
  if '0' ≤ c ∧ c ≤ '9' then some (c.toNat - 48)
  else if 'a' ≤ c ∧ c ≤ 'f' then some (c.toNat - 87)
  else if 'A' ≤ c ∧ c ≤ 'F' then some (c.toNat - 55)
  else none

/-- Characters that need no escape. -/
def JPlain (c : Char) : Prop := c ≠ '"' ∧ c ≠ '\\' ∧ 32 ≤ c.toNat

instance (c : Char) : Decidable (JPlain c) := inferInstanceAs (Decidable (_ ∧ _ ∧ _))

/-- Characters of a string and their text. -/
inductive JChars : List Char → List Char → Prop
  | nil : JChars [] []
  | plain {x w : List Char} (c : Char) (h : JPlain c) (hs : JChars x w) : JChars (c :: x) (c :: w)
  | esc {x w : List Char} (e c : Char) (h : (e, c) ∈ jEscapes) (hs : JChars x w) : JChars (c :: x) ('\\' :: e :: w)
  | uni {x w : List Char} (a b c d : Char) (p q r s : ℕ) (ha : hexVal a = some p) (hb : hexVal b = some q)
      (hc : hexVal c = some r) (hd : hexVal d = some s) (hv : (p * 4096 + q * 256 + r * 16 + s).isValidChar)
      (hs : JChars x w) : JChars (Char.ofNat (p * 4096 + q * 256 + r * 16 + s) :: x) ('\\' :: 'u' :: a :: b :: c :: d :: w)

/-- A string in quotes. -/
def JString (x : List Char) (w : List Char) : Prop := ∃ b, JChars x b ∧ w = '"' :: (b ++ ['"'])

/-- Things with a text: values, and the insides of brackets. -/
inductive JSyn
  | value (v : JVal)
  | elems (vs : List JVal)
  | members (ms : List (List Char × JVal))

/-- The grammar, RFC 8259, sections 2 to 5. `elems` and `members` have at least one entry. -/
inductive JSays : JSyn → List Char → Prop
  | null : JSays (.value .null) "null".toList
  | true : JSays (.value (.bool true)) "true".toList
  | false : JSays (.value (.bool false)) "false".toList
  | num {w : List Char} (h : JNumber w) : JSays (.value (.num w)) w
  | str {x w : List Char} (h : JString x w) : JSays (.value (.str x)) w
  | arr0 (ws : List Char) (h : JWs ws) : JSays (.value (.arr [])) ('[' :: (ws ++ [']']))
  | arr {vs : List JVal} {s : List Char} (h : JSays (.elems vs) s) : JSays (.value (.arr vs)) ('[' :: (s ++ [']']))
  | obj0 (ws : List Char) (h : JWs ws) : JSays (.value (.obj [])) ('{' :: (ws ++ ['}']))
  | obj {ms : List (List Char × JVal)} {s : List Char} (h : JSays (.members ms) s) :
      JSays (.value (.obj ms)) ('{' :: (s ++ ['}']))
  | elem {v : JVal} {s : List Char} (a b : List Char) (ha : JWs a) (h : JSays (.value v) s) (hb : JWs b) :
      JSays (.elems [v]) (a ++ (s ++ b))
  | elemCons {v : JVal} {vs : List JVal} {s r : List Char} (a b : List Char) (ha : JWs a)
      (h : JSays (.value v) s) (hb : JWs b) (hs : JSays (.elems vs) r) :
      JSays (.elems (v :: vs)) (a ++ (s ++ (b ++ ',' :: r)))
  | member {k : List Char} {v : JVal} {q s : List Char} (a b c d : List Char) (ha : JWs a) (hk : JString k q)
      (hb : JWs b) (hc : JWs c) (h : JSays (.value v) s) (hd : JWs d) :
      JSays (.members [(k, v)]) (a ++ (q ++ (b ++ ':' :: (c ++ (s ++ d)))))
  | memberCons {k : List Char} {v : JVal} {ms : List (List Char × JVal)} {q s r : List Char} (a b c d : List Char)
      (ha : JWs a) (hk : JString k q) (hb : JWs b) (hc : JWs c) (h : JSays (.value v) s) (hd : JWs d)
      (hs : JSays (.members ms) r) :
      JSays (.members ((k, v) :: ms)) (a ++ (q ++ (b ++ ':' :: (c ++ (s ++ (d ++ ',' :: r))))))

/-- `JSON-text = ws value ws`. -/
def JsonText (v : JVal) (s : List Char) : Prop :=
  ∃ a t b, JWs a ∧ JSays (.value v) t ∧ JWs b ∧ s = a ++ (t ++ b)

/-! ## A text has at most one value -/

/-- Nothing that could continue a value follows. -/
def JStop (r : List Char) : Prop := ∀ c, r.head? = some c → isJWs c = true ∨ c = ',' ∨ c = ']' ∨ c = '}'

/-- Characters of numbers. -/
def isJNum (c : Char) : Bool := isDig c || c == '-' || c == '+' || c == '.' || c == 'e' || c == 'E'

theorem jws_split {a a' s s' : List Char} (ha : JWs a) (ha' : JWs a') (hs : ∀ c, s.head? = some c → isJWs c = false)
    (hs' : ∀ c, s'.head? = some c → isJWs c = false) (h : a ++ s = a' ++ s') : a = a' ∧ s = s' := by
  induction a generalizing a' with
  | nil =>
    cases a' with
    | nil => exact ⟨rfl, h⟩
    | cons c a' =>
      subst h
      have h1 := hs c rfl
      rw [ha' c (List.mem_cons_self ..)] at h1
      cases h1
  | cons c a ih =>
    cases a' with
    | nil =>
      have h' : c :: (a ++ s) = s' := h
      subst h'
      have h1 := hs' c rfl
      rw [ha c (List.mem_cons_self ..)] at h1
      cases h1
    | cons c' a' =>
      simp only [List.cons_append, List.cons.injEq] at h
      obtain ⟨rfl, h⟩ := h
      obtain ⟨rfl, h2⟩ := ih (fun x hx => ha x (List.mem_cons_of_mem _ hx)) (fun x hx => ha' x (List.mem_cons_of_mem _ hx)) h
      exact ⟨rfl, h2⟩

theorem jchars_unique {x x' w w' r r' : List Char} (h : JChars x w) (h' : JChars x' w')
    (e : w ++ '"' :: r = w' ++ '"' :: r') : x = x' ∧ w = w' := by
  induction h generalizing x' w' with
  | nil =>
    cases h' with
    | nil => exact ⟨rfl, rfl⟩
    | plain c hc _ =>
      simp only [List.nil_append, List.cons_append, List.cons.injEq] at e
      exact absurd e.1.symm hc.1
    | esc e' c _ _ => simp at e
    | uni => simp at e
  | plain c hc hs ih =>
    cases h' with
    | nil =>
      simp only [List.nil_append, List.cons_append, List.cons.injEq] at e
      exact absurd e.1 hc.1
    | plain c' hc' hs' =>
      simp only [List.cons_append, List.cons.injEq] at e
      obtain ⟨rfl, e⟩ := e
      obtain ⟨rfl, rfl⟩ := ih hs' e
      exact ⟨rfl, rfl⟩
    | esc e' c' _ _ =>
      simp only [List.cons_append, List.cons.injEq] at e
      exact absurd e.1 hc.2.1
    | uni =>
      simp only [List.cons_append, List.cons.injEq] at e
      exact absurd e.1 hc.2.1
  | esc e1 c hm hs ih =>
    cases h' with
    | nil => simp at e
    | plain c' hc' hs' =>
      simp only [List.cons_append, List.cons.injEq] at e
      exact absurd e.1.symm hc'.2.1
    | esc e2 c' hm' hs' =>
      simp only [List.cons_append, List.cons.injEq, true_and] at e
      obtain ⟨rfl, e⟩ := e
      obtain ⟨rfl, rfl⟩ := ih hs' e
      have : c = c' := by
        simp only [jEscapes, List.mem_cons, Prod.mk.injEq, List.not_mem_nil, or_false] at hm hm'
        rcases hm with ⟨rfl, rfl⟩ | ⟨rfl, rfl⟩ | ⟨rfl, rfl⟩ | ⟨rfl, rfl⟩ | ⟨rfl, rfl⟩ | ⟨rfl, rfl⟩ | ⟨rfl, rfl⟩ | ⟨rfl, rfl⟩ <;>
          simp_all
      subst this
      exact ⟨rfl, rfl⟩
    | uni =>
      simp only [List.cons_append, List.cons.injEq, true_and] at e
      obtain ⟨rfl, -⟩ := e
      simp [jEscapes] at hm
  | uni a b c d p q r1 s ha hb hc hd hv hs ih =>
    cases h' with
    | nil => simp at e
    | plain c' hc' hs' =>
      simp only [List.cons_append, List.cons.injEq] at e
      exact absurd e.1.symm hc'.2.1
    | esc e2 c' hm' hs' =>
      simp only [List.cons_append, List.cons.injEq, true_and] at e
      obtain ⟨rfl, -⟩ := e
      simp [jEscapes] at hm'
    | uni a' b' c' d' p' q' r2 s' ha' hb' hc' hd' hv' hs' =>
      simp only [List.cons_append, List.cons.injEq, true_and] at e
      obtain ⟨rfl, rfl, rfl, rfl, e⟩ := e
      obtain ⟨rfl, rfl⟩ := ih hs' e
      rw [ha] at ha'; rw [hb] at hb'; rw [hc] at hc'; rw [hd] at hd'
      cases ha'; cases hb'; cases hc'; cases hd'
      exact ⟨rfl, rfl⟩

theorem jstring_unique {x x' w w' r r' : List Char} (h : JString x w) (h' : JString x' w')
    (e : w ++ r = w' ++ r') : x = x' ∧ w = w' := by
  obtain ⟨b, hb, rfl⟩ := h
  obtain ⟨b', hb', rfl⟩ := h'
  simp only [List.cons_append, List.append_assoc, List.nil_append, List.cons.injEq, true_and] at e
  obtain ⟨rfl, rfl⟩ := jchars_unique hb hb' e
  exact ⟨rfl, rfl⟩

theorem jdigits_num {w : List Char} (h : JDigits w) : ∀ c ∈ w, isJNum c = true := by
  intro c hc
  simp [isJNum, h.2 c hc]

/-- A number consists of characters of numbers and begins with a digit or a minus sign. -/
theorem jnumber_chars {w : List Char} (h : JNumber w) :
    (∀ c ∈ w, isJNum c = true) ∧ ∃ c cs, w = c :: cs ∧ (isDig c = true ∨ c = '-') := by
  obtain ⟨m, i, f, e, hm, hi, hf, he, rfl⟩ := h
  have hi' : JDigits i := by
    rcases hi with rfl | h
    · exact ⟨by simp, by decide⟩
    · exact h.1
  have hf' : ∀ c ∈ f, isJNum c = true := by
    rcases hf with rfl | ⟨ds, rfl, hd⟩
    · simp
    · intro c hc
      rcases List.mem_cons.1 hc with rfl | hc
      · decide
      · exact jdigits_num hd c hc
  have he' : ∀ c ∈ e, isJNum c = true := by
    rcases he with rfl | ⟨x, sg, ds, hx, hsg, hd, rfl⟩
    · simp
    · intro c hc
      rcases List.mem_cons.1 hc with rfl | hc
      · rcases hx with rfl | rfl <;> decide
      · rcases List.mem_append.1 hc with hc | hc
        · rcases hsg with rfl | rfl | rfl
          · cases hc
          · simp at hc; subst hc; decide
          · simp at hc; subst hc; decide
        · exact jdigits_num hd c hc
  constructor
  · intro c hc
    simp only [List.mem_append] at hc
    rcases hc with hc | hc | hc | hc
    · rcases hm with rfl | rfl
      · cases hc
      · simp at hc; subst hc; decide
    · exact jdigits_num hi' c hc
    · exact hf' c hc
    · exact he' c hc
  · rcases hm with rfl | rfl
    · obtain ⟨c, cs, rfl⟩ := List.exists_cons_of_ne_nil hi'.1
      exact ⟨c, cs ++ (f ++ e), rfl, Or.inl (hi'.2 c (List.mem_cons_self ..))⟩
    · exact ⟨'-', _, rfl, Or.inr rfl⟩

theorem jstop_num {r : List Char} (h : JStop r) : ∀ c, r.head? = some c → isJNum c = false := by
  intro c hc
  rcases h c hc with h | rfl | rfl | rfl
  · simp only [isJWs, Bool.or_eq_true, beq_iff_eq] at h
    rcases h with ((rfl | rfl) | rfl) | rfl <;> decide
  · decide
  · decide
  · decide

theorem maximal_split {p : Char → Bool} {w w' r r' : List Char} (hw : ∀ c ∈ w, p c = true) (hw' : ∀ c ∈ w', p c = true)
    (hr : ∀ c, r.head? = some c → p c = false) (hr' : ∀ c, r'.head? = some c → p c = false)
    (e : w ++ r = w' ++ r') : w = w' := by
  induction w generalizing w' with
  | nil =>
    cases w' with
    | nil => rfl
    | cons c w' =>
      subst e
      have := hr c rfl
      rw [hw' c (List.mem_cons_self ..)] at this
      cases this
  | cons c w ih =>
    cases w' with
    | nil =>
      have e' : c :: (w ++ r) = r' := e
      subst e'
      have := hr' c rfl
      rw [hw c (List.mem_cons_self ..)] at this
      cases this
    | cons c' w' =>
      simp only [List.cons_append, List.cons.injEq] at e
      obtain ⟨rfl, e⟩ := e
      rw [ih (fun x hx => hw x (List.mem_cons_of_mem _ hx)) (fun x hx => hw' x (List.mem_cons_of_mem _ hx)) e]

/-- The kind of value a character begins. -/
def JVal.Begins : JVal → Char → Prop
  | .null, c => c = 'n'
  | .bool true, c => c = 't'
  | .bool false, c => c = 'f'
  | .num _, c => isDig c = true ∨ c = '-'
  | .str _, c => c = '"'
  | .arr _, c => c = '['
  | .obj _, c => c = '{'

theorem jsays_begins {v : JVal} {s : List Char} (h : JSays (.value v) s) : ∃ c cs, s = c :: cs ∧ v.Begins c := by
  cases h with
  | null => exact ⟨_, _, rfl, rfl⟩
  | true => exact ⟨_, _, rfl, rfl⟩
  | false => exact ⟨_, _, rfl, rfl⟩
  | num h => exact (jnumber_chars h).2
  | str h =>
    obtain ⟨b, -, rfl⟩ := h
    exact ⟨_, _, rfl, rfl⟩
  | arr0 => exact ⟨_, _, rfl, rfl⟩
  | arr => exact ⟨_, _, rfl, rfl⟩
  | obj0 => exact ⟨_, _, rfl, rfl⟩
  | obj => exact ⟨_, _, rfl, rfl⟩

theorem begins_notWs {v : JVal} {c : Char} (h : v.Begins c) : isJWs c = false ∧ c ≠ ']' ∧ c ≠ '}' := by
  have hd : ∀ {c : Char}, isDig c = true → isJWs c = false ∧ c ≠ ']' ∧ c ≠ '}' := by
    intro c hc
    refine ⟨?_, by rintro rfl; simp [isDig] at hc, by rintro rfl; simp [isDig] at hc⟩
    by_contra hw
    rw [Bool.not_eq_false] at hw
    simp only [isJWs, Bool.or_eq_true, beq_iff_eq] at hw
    rcases hw with ((rfl | rfl) | rfl) | rfl <;> revert hc <;> decide
  match v, h with
  | .null, h => cases h; decide
  | .bool true, h => cases h; decide
  | .bool false, h => cases h; decide
  | .num _, h =>
    rcases h with h | rfl
    · exact hd h
    · decide
  | .str _, h => cases h; decide
  | .arr _, h => cases h; decide
  | .obj _, h => cases h; decide

/-- Values by kind. -/
def JVal.kind : JVal → ℕ
  | .null => 0
  | .bool true => 1
  | .bool false => 2
  | .num _ => 3
  | .str _ => 4
  | .arr _ => 5
  | .obj _ => 6

theorem begins_kind {v v' : JVal} {c : Char} (h : v.Begins c) (h' : v'.Begins c) : v.kind = v'.kind := by
  have hd : ∀ {c : Char}, isDig c = true → c ≠ 'n' ∧ c ≠ 't' ∧ c ≠ 'f' ∧ c ≠ '"' ∧ c ≠ '[' ∧ c ≠ '{' := by
    intro c hc
    refine ⟨?_, ?_, ?_, ?_, ?_, ?_⟩ <;> rintro rfl <;> revert hc <;> decide
  match v, v', h, h' with
  | .null, .null, _, _ | .bool true, .bool true, _, _ | .bool false, .bool false, _, _ | .num _, .num _, _, _
  | .str _, .str _, _, _ | .arr _, .arr _, _, _ | .obj _, .obj _, _, _ => rfl
  | .num _, .null, h, h' | .num _, .bool true, h, h' | .num _, .bool false, h, h' | .num _, .str _, h, h'
  | .num _, .arr _, h, h' | .num _, .obj _, h, h' =>
    rcases h with h | rfl
    · have := hd h
      simp only [JVal.Begins] at h'
      simp [h'] at this
    · simp only [JVal.Begins] at h'
      exact absurd h' (by decide)
  | .null, .num _, h', h | .bool true, .num _, h', h | .bool false, .num _, h', h | .str _, .num _, h', h
  | .arr _, .num _, h', h | .obj _, .num _, h', h =>
    rcases h with h | rfl
    · have := hd h
      simp only [JVal.Begins] at h'
      simp [h'] at this
    · simp only [JVal.Begins] at h'
      exact absurd h' (by decide)
  | .null, .bool true, h, h' | .null, .bool false, h, h' | .null, .str _, h, h' | .null, .arr _, h, h'
  | .null, .obj _, h, h' | .bool true, .null, h, h' | .bool true, .bool false, h, h' | .bool true, .str _, h, h'
  | .bool true, .arr _, h, h' | .bool true, .obj _, h, h' | .bool false, .null, h, h' | .bool false, .bool true, h, h'
  | .bool false, .str _, h, h' | .bool false, .arr _, h, h' | .bool false, .obj _, h, h' | .str _, .null, h, h'
  | .str _, .bool true, h, h' | .str _, .bool false, h, h' | .str _, .arr _, h, h' | .str _, .obj _, h, h'
  | .arr _, .null, h, h' | .arr _, .bool true, h, h' | .arr _, .bool false, h, h' | .arr _, .str _, h, h'
  | .arr _, .obj _, h, h' | .obj _, .null, h, h' | .obj _, .bool true, h, h' | .obj _, .bool false, h, h'
  | .obj _, .str _, h, h' | .obj _, .arr _, h, h' =>
    simp only [JVal.Begins] at h h'
    rw [h] at h'
    exact absurd h' (by decide)

/-- What follows a value inside of brackets. -/
theorem jstop_ws {b : List Char} (hb : JWs b) {c : Char} (hc : c = ',' ∨ c = ']' ∨ c = '}') (r : List Char) :
    JStop (b ++ c :: r) := by
  intro x hx
  cases b with
  | nil =>
    simp only [List.nil_append, List.head?_cons, Option.some.injEq] at hx
    subst hx
    exact Or.inr hc
  | cons y b =>
    simp only [List.cons_append, List.head?_cons, Option.some.injEq] at hx
    subst hx
    exact Or.inl (hb _ (List.mem_cons_self ..))

theorem notWs_head {c : Char} (h : isJWs c = false) (r : List Char) :
    ∀ x, (c :: r).head? = some x → isJWs x = false := by
  intro x hx
  cases hx
  exact h

theorem value_head {v : JVal} {s : List Char} (h : JSays (.value v) s) (r : List Char) :
    ∀ x, (s ++ r).head? = some x → isJWs x = false := by
  obtain ⟨c, cs, rfl, hc⟩ := jsays_begins h
  intro x hx
  cases hx
  exact (begins_notWs hc).1

theorem string_head {k q : List Char} (h : JString k q) (r : List Char) :
    ∀ x, (q ++ r).head? = some x → isJWs x = false := by
  obtain ⟨b, -, rfl⟩ := h
  intro x hx
  cases hx
  rfl

/-- At most one reading. -/
def JUnique : JSyn → List Char → Prop
  | .value v, s => ∀ v' s' r r', JSays (.value v') s' → JStop r → JStop r' → s ++ r = s' ++ r' → v = v' ∧ s = s'
  | .elems vs, s => ∀ vs' s' r r', JSays (.elems vs') s' → s ++ ']' :: r = s' ++ ']' :: r' → vs = vs' ∧ s = s'
  | .members ms, s => ∀ ms' s' r r', JSays (.members ms') s' → s ++ '}' :: r = s' ++ '}' :: r' → ms = ms' ∧ s = s'

/-- The inside of brackets is not white space. -/
theorem elems_ne_ws {vs : List JVal} {s ws r r' : List Char} (h : JSays (.elems vs) s) (hw : JWs ws)
    (e : s ++ ']' :: r = ws ++ ']' :: r') : False := by
  cases h with
  | elem a b ha h hb =>
    rw [List.append_assoc, List.append_assoc] at e
    obtain ⟨rfl, e2⟩ := jws_split ha hw (value_head h _) (notWs_head (by decide) _) e
    obtain ⟨c, cs, rfl, hc⟩ := jsays_begins h
    simp only [List.cons_append, List.cons.injEq] at e2
    exact (begins_notWs hc).2.1 e2.1
  | elemCons a b ha h hb hs =>
    rw [List.append_assoc, List.append_assoc] at e
    obtain ⟨rfl, e2⟩ := jws_split ha hw (value_head h _) (notWs_head (by decide) _) e
    obtain ⟨c, cs, rfl, hc⟩ := jsays_begins h
    simp only [List.cons_append, List.cons.injEq] at e2
    exact (begins_notWs hc).2.1 e2.1

theorem members_ne_ws {ms : List (List Char × JVal)} {s ws r r' : List Char} (h : JSays (.members ms) s) (hw : JWs ws)
    (e : s ++ '}' :: r = ws ++ '}' :: r') : False := by
  cases h with
  | member a b c d ha hk hb hc h hd =>
    rw [List.append_assoc, List.append_assoc] at e
    obtain ⟨rfl, e2⟩ := jws_split ha hw (string_head hk _) (notWs_head (by decide) _) e
    obtain ⟨b', -, rfl⟩ := hk
    simp at e2
  | memberCons a b c d ha hk hb hc h hd hs =>
    rw [List.append_assoc, List.append_assoc] at e
    obtain ⟨rfl, e2⟩ := jws_split ha hw (string_head hk _) (notWs_head (by decide) _) e
    obtain ⟨b', -, rfl⟩ := hk
    simp at e2

/-- Beginning of a list of elements. -/
theorem elems_inv {vs : List JVal} {s : List Char} (h : JSays (.elems vs) s) (r : List Char) :
    ∃ a t b v, JWs a ∧ JSays (.value v) t ∧ JWs b ∧
      ((vs = [v] ∧ s ++ ']' :: r = a ++ (t ++ (b ++ ']' :: r)) ∧ s = a ++ (t ++ b)) ∨
        ∃ vs' s', JSays (.elems vs') s' ∧ vs = v :: vs' ∧ s ++ ']' :: r = a ++ (t ++ (b ++ ',' :: (s' ++ ']' :: r))) ∧
          s = a ++ (t ++ (b ++ ',' :: s'))) := by
  cases h with
  | elem a b ha h hb => exact ⟨a, _, b, _, ha, h, hb, Or.inl ⟨rfl, by simp, rfl⟩⟩
  | elemCons a b ha h hb hs => exact ⟨a, _, b, _, ha, h, hb, Or.inr ⟨_, _, hs, rfl, by simp, rfl⟩⟩

theorem members_inv {ms : List (List Char × JVal)} {s : List Char} (h : JSays (.members ms) s) (r : List Char) :
    ∃ a k q b c t d v, JWs a ∧ JString k q ∧ JWs b ∧ JWs c ∧ JSays (.value v) t ∧ JWs d ∧
      ((ms = [(k, v)] ∧ s ++ '}' :: r = a ++ (q ++ (b ++ ':' :: (c ++ (t ++ (d ++ '}' :: r))))) ∧
          s = a ++ (q ++ (b ++ ':' :: (c ++ (t ++ d))))) ∨
        ∃ ms' s', JSays (.members ms') s' ∧ ms = (k, v) :: ms' ∧
          s ++ '}' :: r = a ++ (q ++ (b ++ ':' :: (c ++ (t ++ (d ++ ',' :: (s' ++ '}' :: r)))))) ∧
          s = a ++ (q ++ (b ++ ':' :: (c ++ (t ++ (d ++ ',' :: s')))))) := by
  cases h with
  | member a b c d ha hk hb hc h hd => exact ⟨a, _, _, b, c, _, d, _, ha, hk, hb, hc, h, hd, Or.inl ⟨rfl, by simp, rfl⟩⟩
  | memberCons a b c d ha hk hb hc h hd hs =>
    exact ⟨a, _, _, b, c, _, d, _, ha, hk, hb, hc, h, hd, Or.inr ⟨_, _, hs, rfl, by simp, rfl⟩⟩

theorem jsays_unique {x : JSyn} {s : List Char} (h : JSays x s) : JUnique x s := by
  have hkind : ∀ {v v' : JVal} {s s' r r' : List Char}, JSays (.value v) s → JSays (.value v') s' →
      s ++ r = s' ++ r' → v.kind = v'.kind := by
    intro v v' s s' r r' h h' e
    obtain ⟨c, cs, rfl, h1⟩ := jsays_begins h
    obtain ⟨c', cs', rfl, h2⟩ := jsays_begins h'
    simp only [List.cons_append, List.cons.injEq] at e
    rw [e.1] at h1
    exact begins_kind h1 h2
  induction h with
  | null =>
    intro v' s' r r' h' hr hr' e
    have hk := hkind .null h' e
    cases h' <;> simp [JVal.kind] at hk
    exact ⟨rfl, rfl⟩
  | true =>
    intro v' s' r r' h' hr hr' e
    have hk := hkind .true h' e
    cases h' <;> simp [JVal.kind] at hk
    exact ⟨rfl, rfl⟩
  | false =>
    intro v' s' r r' h' hr hr' e
    have hk := hkind .false h' e
    cases h' <;> simp [JVal.kind] at hk
    exact ⟨rfl, rfl⟩
  | num h =>
    intro v' s' r r' h' hr hr' e
    have hk := hkind (.num h) h' e
    cases h' <;> simp [JVal.kind] at hk
    rename_i h'
    have := maximal_split (jnumber_chars h).1 (jnumber_chars h').1 (jstop_num hr) (jstop_num hr') e
    subst this
    exact ⟨rfl, rfl⟩
  | str h =>
    intro v' s' r r' h' hr hr' e
    have hk := hkind (.str h) h' e
    cases h' <;> simp [JVal.kind] at hk
    rename_i h'
    obtain ⟨rfl, rfl⟩ := jstring_unique h h' e
    exact ⟨rfl, rfl⟩
  | arr0 ws hw =>
    intro v' s' r r' h' hr hr' e
    have hk := hkind (.arr0 ws hw) h' e
    cases h' <;> simp [JVal.kind] at hk
    · rename_i ws' hw'
      simp only [List.cons_append, List.append_assoc, List.nil_append, List.cons.injEq, true_and] at e
      obtain ⟨rfl, -⟩ := jws_split hw hw' (notWs_head (by decide) _) (notWs_head (by decide) _) e
      exact ⟨rfl, rfl⟩
    · rename_i h'
      simp only [List.cons_append, List.append_assoc, List.nil_append, List.cons.injEq, true_and] at e
      exact (elems_ne_ws h' hw e.symm).elim
  | arr h ih =>
    intro v' s' r r' h' hr hr' e
    have hk := hkind (.arr h) h' e
    cases h' <;> simp [JVal.kind] at hk
    · rename_i ws' hw'
      simp only [List.cons_append, List.append_assoc, List.nil_append, List.cons.injEq, true_and] at e
      exact (elems_ne_ws h hw' e).elim
    · rename_i h'
      simp only [List.cons_append, List.append_assoc, List.nil_append, List.cons.injEq, true_and] at e
      obtain ⟨rfl, rfl⟩ := ih _ _ _ _ h' e
      exact ⟨rfl, rfl⟩
  | obj0 ws hw =>
    intro v' s' r r' h' hr hr' e
    have hk := hkind (.obj0 ws hw) h' e
    cases h' <;> simp [JVal.kind] at hk
    · rename_i ws' hw'
      simp only [List.cons_append, List.append_assoc, List.nil_append, List.cons.injEq, true_and] at e
      obtain ⟨rfl, -⟩ := jws_split hw hw' (notWs_head (by decide) _) (notWs_head (by decide) _) e
      exact ⟨rfl, rfl⟩
    · rename_i h'
      simp only [List.cons_append, List.append_assoc, List.nil_append, List.cons.injEq, true_and] at e
      exact (members_ne_ws h' hw e.symm).elim
  | obj h ih =>
    intro v' s' r r' h' hr hr' e
    have hk := hkind (.obj h) h' e
    cases h' <;> simp [JVal.kind] at hk
    · rename_i ws' hw'
      simp only [List.cons_append, List.append_assoc, List.nil_append, List.cons.injEq, true_and] at e
      exact (members_ne_ws h hw' e).elim
    · rename_i h'
      simp only [List.cons_append, List.append_assoc, List.nil_append, List.cons.injEq, true_and] at e
      obtain ⟨rfl, rfl⟩ := ih _ _ _ _ h' e
      exact ⟨rfl, rfl⟩
  | elem a b ha h hb ih =>
    intro vs' s' r r' h' e
    rw [List.append_assoc, List.append_assoc] at e
    obtain ⟨a', t, b', v', ha', ht, hb', ⟨rfl, e', rfl⟩ | ⟨vs1, s1, hs1, rfl, e', rfl⟩⟩ := elems_inv h' r'
    · rw [e'] at e
      obtain ⟨rfl, e2⟩ := jws_split ha ha' (value_head h _) (value_head ht _) e
      obtain ⟨rfl, rfl⟩ := ih _ _ _ _ ht (jstop_ws hb (by simp) _) (jstop_ws hb' (by simp) _) e2
      obtain ⟨rfl, -⟩ := jws_split hb hb' (notWs_head (by decide) _) (notWs_head (by decide) _) (List.append_cancel_left e2)
      exact ⟨rfl, rfl⟩
    · rw [e'] at e
      obtain ⟨rfl, e2⟩ := jws_split ha ha' (value_head h _) (value_head ht _) e
      obtain ⟨rfl, rfl⟩ := ih _ _ _ _ ht (jstop_ws hb (by simp) _) (jstop_ws hb' (by simp) _) e2
      obtain ⟨-, e3⟩ := jws_split hb hb' (notWs_head (by decide) _) (notWs_head (by decide) _) (List.append_cancel_left e2)
      simp at e3
  | elemCons a b ha h hb hs ih ihs =>
    intro vs' s' r r' h' e
    simp only [List.append_assoc, List.cons_append] at e
    obtain ⟨a', t, b', v', ha', ht, hb', ⟨rfl, e', rfl⟩ | ⟨vs1, s1, hs1, rfl, e', rfl⟩⟩ := elems_inv h' r'
    · rw [e'] at e
      obtain ⟨rfl, e2⟩ := jws_split ha ha' (value_head h _) (value_head ht _) e
      obtain ⟨rfl, rfl⟩ := ih _ _ _ _ ht (jstop_ws hb (by simp) _) (jstop_ws hb' (by simp) _) e2
      obtain ⟨-, e3⟩ := jws_split hb hb' (notWs_head (by decide) _) (notWs_head (by decide) _) (List.append_cancel_left e2)
      simp at e3
    · rw [e'] at e
      obtain ⟨rfl, e2⟩ := jws_split ha ha' (value_head h _) (value_head ht _) e
      obtain ⟨rfl, rfl⟩ := ih _ _ _ _ ht (jstop_ws hb (by simp) _) (jstop_ws hb' (by simp) _) e2
      obtain ⟨rfl, e3⟩ := jws_split hb hb' (notWs_head (by decide) _) (notWs_head (by decide) _) (List.append_cancel_left e2)
      simp only [List.cons.injEq, true_and] at e3
      obtain ⟨rfl, rfl⟩ := ihs _ _ _ _ hs1 e3
      exact ⟨rfl, rfl⟩
  | member a b c d ha hk hb hc h hd ih =>
    intro ms' s' r r' h' e
    simp only [List.append_assoc, List.cons_append] at e
    obtain ⟨a', k', q', b', c', t, d', v', ha', hk', hb', hc', ht, hd', ⟨rfl, e', rfl⟩ | ⟨ms1, s1, hs1, rfl, e', rfl⟩⟩ :=
      members_inv h' r'
    all_goals
      rw [e'] at e
      obtain ⟨rfl, e2⟩ := jws_split ha ha' (string_head hk _) (string_head hk' _) e
      obtain ⟨rfl, rfl⟩ := jstring_unique hk hk' e2
      obtain ⟨rfl, e3⟩ := jws_split hb hb' (notWs_head (by decide) _) (notWs_head (by decide) _) (List.append_cancel_left e2)
      simp only [List.cons.injEq, true_and] at e3
      obtain ⟨rfl, e4⟩ := jws_split hc hc' (value_head h _) (value_head ht _) e3
      obtain ⟨rfl, rfl⟩ := ih _ _ _ _ ht (jstop_ws hd (by simp) _) (jstop_ws hd' (by simp) _) e4
      obtain ⟨rfl, e5⟩ := jws_split hd hd' (notWs_head (by decide) _) (notWs_head (by decide) _) (List.append_cancel_left e4)
    · exact ⟨rfl, rfl⟩
    · simp at e5
  | memberCons a b c d ha hk hb hc h hd hs ih ihs =>
    intro ms' s' r r' h' e
    simp only [List.append_assoc, List.cons_append] at e
    obtain ⟨a', k', q', b', c', t, d', v', ha', hk', hb', hc', ht, hd', ⟨rfl, e', rfl⟩ | ⟨ms1, s1, hs1, rfl, e', rfl⟩⟩ :=
      members_inv h' r'
    all_goals
      rw [e'] at e
      obtain ⟨rfl, e2⟩ := jws_split ha ha' (string_head hk _) (string_head hk' _) e
      obtain ⟨rfl, rfl⟩ := jstring_unique hk hk' e2
      obtain ⟨rfl, e3⟩ := jws_split hb hb' (notWs_head (by decide) _) (notWs_head (by decide) _) (List.append_cancel_left e2)
      simp only [List.cons.injEq, true_and] at e3
      obtain ⟨rfl, e4⟩ := jws_split hc hc' (value_head h _) (value_head ht _) e3
      obtain ⟨rfl, rfl⟩ := ih _ _ _ _ ht (jstop_ws hd (by simp) _) (jstop_ws hd' (by simp) _) e4
      obtain ⟨rfl, e5⟩ := jws_split hd hd' (notWs_head (by decide) _) (notWs_head (by decide) _) (List.append_cancel_left e4)
    · simp at e5
    · simp only [List.cons.injEq, true_and] at e5
      obtain ⟨rfl, rfl⟩ := ihs _ _ _ _ hs1 e5
      exact ⟨rfl, rfl⟩

/-- A text has at most one value. -/
theorem json_unique {v v' : JVal} {s : List Char} (h : JsonText v s) (h' : JsonText v' s) : v = v' := by
  obtain ⟨a, t, b, ha, ht, hb, rfl⟩ := h
  obtain ⟨a', t', b', ha', ht', hb', e⟩ := h'
  have hstop : ∀ {b : List Char}, JWs b → JStop b := by
    intro b hb c hc
    cases b with
    | nil => cases hc
    | cons x b => cases hc; exact Or.inl (hb _ (List.mem_cons_self ..))
  obtain ⟨rfl, e2⟩ := jws_split ha ha' (value_head ht _) (value_head ht' _) e
  exact (jsays_unique ht _ _ _ _ ht' (hstop hb) (hstop hb') e2).1

end Gr1c
