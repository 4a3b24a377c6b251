import Verif.Model.Render
import Verif.Spec.Html
/-!
# Rendering to HTML (C70, C91)
-/
namespace Puck

/-! ## The trees considered, and what should be read -/

/-- A character that may stand in a name of the rendered HTML. -/
def plainNameChar (c : Char) : Bool := !htmlSpace c && c != '/' && c != '>' && c != '=' && c != '\x00' && c != '\r' && c.toLower == c

/-- A tag name: a lower-case letter, then characters which do not end a name; no raw-text element. -/
def PlainTag (name : String) : Prop :=
  (∃ c cs, name.toList = c :: cs ∧ htmlAlpha c = true) ∧ (∀ c ∈ name.toList, plainNameChar c = true) ∧ name ∉ rawText

mutual
/-- Trees without the characters which mean something in HTML. -/
def Element.HtmlPlain : Element → Prop
  | ⟨_, name, attributes, _, children, text, _⟩ =>
    PlainTag name ∧ (attributes.map (·.1)).Nodup ∧
    (∀ p ∈ attributes, (∀ c ∈ p.1.toList, plainNameChar c = true) ∧ ∀ c ∈ p.2.toList, c ≠ '"' ∧ c ≠ '&' ∧ c ≠ '\x00' ∧ c ≠ '\r') ∧
    (∀ t, text = some t → ∀ c ∈ t.toList, c ≠ '<' ∧ c ≠ '&' ∧ c ≠ '\r') ∧ HtmlPlainAll children
/-- All of them. -/
def HtmlPlainAll : List Element → Prop
  | [] => True
  | c :: cs => c.HtmlPlain ∧ HtmlPlainAll cs
end

mutual
/-- The tokens of a tree: tag, text, children; `attr` says under which name an attribute appears. -/
def Element.tokens (attr : String → String) : Element → List HtmlToken
  | ⟨_, name, attributes, _, children, text, _⟩ =>
    .startTag name.toList (attributes.map fun p => ((attr p.1).toList, p.2.toList)) ::
      ((text.getD "").toList.map .char ++ (tokensAll attr children ++ [.endTag name.toList]))
/-- All of them, in order. -/
def tokensAll (attr : String → String) : List Element → List HtmlToken
  | [] => []
  | c :: cs => c.tokens attr ++ tokensAll attr cs
end

mutual
/-- The same tags, attributes, text and children; ids, listeners and keys are not shown. -/
def Element.SameHtml : Element → Element → Prop
  | ⟨_, name, attributes, _, children, text, _⟩, ⟨_, name', attributes', _, children', text', _⟩ =>
    name = name' ∧ attributes = attributes' ∧ text.getD "" = text'.getD "" ∧ SameHtmlAll children children'
/-- Pairwise. -/
def SameHtmlAll : List Element → List Element → Prop
  | [], [] => True
  | c :: cs, c' :: cs' => c.SameHtml c' ∧ SameHtmlAll cs cs'
  | _, _ => False
end

/-! ## Reading -/

/-- Reading `cs` in state `s` leads to `s'` and emits `out`. -/
def Reads (s : HtmlState) (cs : List Char) (s' : HtmlState) (out : List HtmlToken) : Prop :=
  ∀ rest, htmlTokens s (cs ++ rest) = (htmlTokens s' rest).map (out ++ ·)

theorem Reads.nil (s : HtmlState) : Reads s [] s [] := by
  intro rest
  cases h : htmlTokens s rest <;> simp [h]

theorem Reads.trans {s s' s'' : HtmlState} {a b : List Char} {o o' : List HtmlToken} (h : Reads s a s' o) (h' : Reads s' b s'' o') :
    Reads s (a ++ b) s'' (o ++ o') := by
  intro rest
  rw [List.append_assoc, h, h', Option.map_map]
  congr 1
  funext x
  simp

theorem Reads.one {s s' : HtmlState} {c : Char} {o : List HtmlToken} (h : htmlStep s c = some (s', o)) : Reads s [c] s' o := by
  intro rest
  rw [List.singleton_append, htmlTokens, h]

theorem plain_facts {c : Char} (h : plainNameChar c = true) : htmlSpace c = false ∧ (c == '/') = false ∧ (c == '>') = false ∧ (c == '=') = false ∧
    htmlNameChar c = c := by
  simp only [plainNameChar, Bool.and_eq_true, Bool.not_eq_true', bne_iff_ne, ne_eq, beq_iff_eq] at h
  obtain ⟨⟨⟨⟨⟨⟨h1, h2⟩, h3⟩, h4⟩, h5⟩, h6⟩, h7⟩ := h
  simp [h1, h2, h3, h4, htmlNameChar, h5, h7]

theorem reads_tagName (cs : List Char) (h : ∀ c ∈ cs, plainNameChar c = true) (t : HtmlTag) :
    Reads (.tagName t) cs (.tagName { t with name := t.name ++ cs }) [] := by
  induction cs generalizing t with
  | nil => simpa using Reads.nil (.tagName t)
  | cons c cs ih =>
    obtain ⟨h1, h2, h3, -, h4⟩ := plain_facts (h c (by simp))
    have s : Reads (.tagName t) [c] (.tagName { t with name := t.name ++ [c] }) [] := .one (by simp [htmlStep, h1, h2, h3, h4])
    have := s.trans (ih (fun c hc => h c (by simp [hc])) { t with name := t.name ++ [c] })
    simpa using this

theorem reads_attrName (cs : List Char) (h : ∀ c ∈ cs, plainNameChar c = true) (t : HtmlTag) (n : List Char) :
    Reads (.attrName t n) cs (.attrName t (n ++ cs)) [] := by
  induction cs generalizing n with
  | nil => simpa using Reads.nil (.attrName t n)
  | cons c cs ih =>
    obtain ⟨h1, h2, h3, h5, h4⟩ := plain_facts (h c (by simp))
    have s : Reads (.attrName t n) [c] (.attrName t (n ++ [c])) [] := .one (by simp [htmlStep, inAttrName, h1, h2, h3, h4, h5])
    have := s.trans (ih (fun c hc => h c (by simp [hc])) (n ++ [c]))
    simpa using this

theorem reads_value (cs : List Char) (h : ∀ c ∈ cs, c ≠ '"' ∧ c ≠ '&' ∧ c ≠ '\x00' ∧ c ≠ '\r') (t : HtmlTag) (n v : List Char) :
    Reads (.doubleQuoted t n v) cs (.doubleQuoted t n (v ++ cs)) [] := by
  induction cs generalizing v with
  | nil => simpa using Reads.nil (.doubleQuoted t n v)
  | cons c cs ih =>
    obtain ⟨h1, h2, h3, -⟩ := h c (by simp)
    have s : Reads (.doubleQuoted t n v) [c] (.doubleQuoted t n (v ++ [c])) [] := .one (by simp [htmlStep, htmlValueChar, h1, h2, h3])
    have := s.trans (ih (fun c hc => h c (by simp [hc])) (v ++ [c]))
    simpa using this

theorem reads_text (cs : List Char) (h : ∀ c ∈ cs, c ≠ '<' ∧ c ≠ '&' ∧ c ≠ '\r') : Reads .data cs .data (cs.map .char) := by
  induction cs with
  | nil => exact Reads.nil _
  | cons c cs ih =>
    obtain ⟨h1, h2, -⟩ := h c (by simp)
    have s : Reads .data [c] .data [.char c] := .one (by simp [htmlStep, inData, h1, h2])
    exact s.trans (ih fun c hc => h c (by simp [hc]))

/-- An attribute's name, as written and read. -/
def quoted (k : String) : String := "\"" ++ k ++ "\""

theorem quoted_toList (k : String) : (quoted k).toList = '"' :: (k.toList ++ ['"']) := by
  simp [quoted, String.toList_append]

theorem quoted_inj {a b : String} (h : quoted a = quoted b) : a = b := by
  have := congrArg String.toList h
  simp only [quoted_toList, List.cons.injEq, true_and] at this
  exact String.toList_inj.mp (List.append_cancel_right this)

theorem reads_attr (k v : String) (hk : ∀ c ∈ k.toList, plainNameChar c = true) (hv : ∀ c ∈ v.toList, c ≠ '"' ∧ c ≠ '&' ∧ c ≠ '\x00' ∧ c ≠ '\r')
    (t : HtmlTag) (hn : (quoted k).toList ∉ t.attrs.map (·.1)) :
    Reads (.beforeAttrName t) ("\"" ++ k ++ "\"=" ++ "\"" ++ v ++ "\" ").toList
      (.beforeAttrName { t with attrs := t.attrs ++ [((quoted k).toList, v.toList)] }) [] := by
  have hq : plainNameChar '"' = true := by decide
  have hq2 : htmlStep (.beforeAttrName t) '"' = some (.attrName t ['"'], []) := by
    obtain ⟨h1, h2, h3, h5, h4⟩ := plain_facts hq
    simp only [htmlStep, inBeforeAttrName, inAttrName, h1, h2, h3, h5, h4, Bool.false_eq_true, if_false, List.nil_append]
  have s1 : Reads (.beforeAttrName t) ['"'] (.attrName t ['"']) [] := .one hq2
  have s2 := s1.trans (reads_attrName (k.toList ++ ['"']) (by
    intro c hc
    rcases List.mem_append.mp hc with hc | hc
    · exact hk c hc
    · rw [List.mem_singleton.mp hc]; exact hq) t ['"'])
  have s3 : Reads (.attrName t (quoted k).toList) ['='] (.beforeAttrValue t (quoted k).toList) [] := .one (by simp [htmlStep, inAttrName, htmlSpace])
  have s4 : Reads (.beforeAttrValue t (quoted k).toList) ['"'] (.doubleQuoted t (quoted k).toList []) [] := .one (by simp [htmlStep, htmlSpace])
  have s5 := reads_value v.toList hv t (quoted k).toList []
  have hadd : t.add (quoted k).toList v.toList = { t with attrs := t.attrs ++ [((quoted k).toList, v.toList)] } := by
    have : t.attrs.any (fun p => p.1 == (quoted k).toList) = false := by
      rw [List.any_eq_false]
      intro p hp e
      exact hn (List.mem_map.mpr ⟨p, hp, eq_of_beq e⟩)
    simp [HtmlTag.add, this]
  have s6 : Reads (.doubleQuoted t (quoted k).toList v.toList) ['"'] (.afterQuoted (t.add (quoted k).toList v.toList)) [] := .one (by simp [htmlStep])
  have s7 : Reads (.afterQuoted (t.add (quoted k).toList v.toList)) [' '] (.beforeAttrName (t.add (quoted k).toList v.toList)) [] :=
    .one (by simp [htmlStep, htmlSpace])
  rw [List.singleton_append, ← quoted_toList] at s2
  have := s2.trans (s3.trans (s4.trans (s5.trans (s6.trans s7))))
  rw [hadd] at this
  simpa [quoted_toList, String.toList_append] using this

theorem reads_attrs (as : Headers) (hs : ∀ p ∈ as, (∀ c ∈ p.1.toList, plainNameChar c = true) ∧
      ∀ c ∈ p.2.toList, c ≠ '"' ∧ c ≠ '&' ∧ c ≠ '\x00' ∧ c ≠ '\r') (t : HtmlTag)
    (hn : (t.attrs.map (·.1) ++ as.map fun p => (quoted p.1).toList).Nodup) :
    Reads (.beforeAttrName t) (writeAttributes as).toList
      (.beforeAttrName { t with attrs := t.attrs ++ as.map fun p => ((quoted p.1).toList, p.2.toList) }) [] := by
  induction as generalizing t with
  | nil => simpa [writeAttributes] using Reads.nil (.beforeAttrName t)
  | cons p as ih =>
    have h0 : (quoted p.1).toList ∉ t.attrs.map (·.1) := by
      intro h
      rw [List.nodup_append] at hn
      exact hn.2.2 _ h _ (by simp) rfl
    have s1 := reads_attr p.1 p.2 (hs p (by simp)).1 (hs p (by simp)).2 t h0
    have s2 := ih (fun q hq => hs q (by simp [hq])) { t with attrs := t.attrs ++ [((quoted p.1).toList, p.2.toList)] } (by
      simpa using hn)
    have := s1.trans s2
    simpa [writeAttributes, String.toList_append] using this

theorem reads_open (name : String) (as : Headers) (hname : PlainTag name) (hs : ∀ p ∈ as, (∀ c ∈ p.1.toList, plainNameChar c = true) ∧
      ∀ c ∈ p.2.toList, c ≠ '"' ∧ c ≠ '&' ∧ c ≠ '\x00' ∧ c ≠ '\r') (hn : (as.map (·.1)).Nodup) :
    Reads .data (writeOpeningTag name as).toList .data [.startTag name.toList (as.map fun p => ((quoted p.1).toList, p.2.toList))] := by
  obtain ⟨⟨c, cs, h1, h2⟩, h3, -⟩ := hname
  have s1 : Reads .data ['<'] .tagOpen [] := .one (by simp [htmlStep, inData])
  have hc := plain_facts (h3 c (by simp [h1]))
  have s2 : Reads .tagOpen [c] (.tagName ⟨false, [c], []⟩) [] := .one (by simp [htmlStep, hc.2.1, h2, hc.2.2.2.2])
  have s3 := reads_tagName cs (fun d hd => h3 d (by simp [h1, hd])) ⟨false, [c], []⟩
  have s4 : Reads (.tagName ⟨false, c :: cs, []⟩) [' '] (.beforeAttrName ⟨false, c :: cs, []⟩) [] := .one (by simp [htmlStep, htmlSpace])
  have s5 := reads_attrs as hs ⟨false, c :: cs, []⟩ (by
    simp only [List.map_nil, List.nil_append]
    have : as.map (fun p => (quoted p.1).toList) = (as.map (·.1)).map (fun k => (quoted k).toList) := by simp
    rw [this]
    refine List.Pairwise.map _ ?_ hn
    intro a b hab e
    exact hab (quoted_inj (String.toList_inj.mp e)))
  have s6 : Reads (.beforeAttrName ⟨false, c :: cs, as.map fun p => ((quoted p.1).toList, p.2.toList)⟩) [' ']
      (.beforeAttrName ⟨false, c :: cs, as.map fun p => ((quoted p.1).toList, p.2.toList)⟩) [] := .one (by simp [htmlStep, inBeforeAttrName, htmlSpace])
  have s7 : Reads (.beforeAttrName ⟨false, c :: cs, as.map fun p => ((quoted p.1).toList, p.2.toList)⟩) ['>'] .data
      [.startTag (c :: cs) (as.map fun p => ((quoted p.1).toList, p.2.toList))] :=
    .one (by simp [htmlStep, inBeforeAttrName, htmlSpace, HtmlTag.token])
  have := s1.trans (s2.trans (s3.trans (s4.trans (s5.trans (s6.trans s7)))))
  simpa [writeOpeningTag, String.toList_append, h1] using this

theorem reads_close (name : String) (hname : PlainTag name) : Reads .data (writeClosingTag name).toList .data [.endTag name.toList] := by
  obtain ⟨⟨c, cs, h1, h2⟩, h3, -⟩ := hname
  have s1 : Reads .data ['<'] .tagOpen [] := .one (by simp [htmlStep, inData])
  have s2 : Reads .tagOpen ['/'] .endTagOpen [] := .one (by simp [htmlStep])
  have hc := plain_facts (h3 c (by simp [h1]))
  have s3 : Reads .endTagOpen [c] (.tagName ⟨true, [c], []⟩) [] := .one (by simp [htmlStep, h2, hc.2.2.2.2])
  have s4 := reads_tagName cs (fun d hd => h3 d (by simp [h1, hd])) ⟨true, [c], []⟩
  have s5 : Reads (.tagName ⟨true, c :: cs, []⟩) ['>'] .data [.endTag (c :: cs)] := .one (by simp [htmlStep, htmlSpace, HtmlTag.token])
  have := s1.trans (s2.trans (s3.trans (s4.trans s5)))
  simpa [writeClosingTag, String.toList_append, h1] using this

mutual
theorem reads_tree : ∀ e : Element, e.HtmlPlain → Reads .data e.renderHtml.toList .data (e.tokens quoted)
  | ⟨_, name, attributes, _, children, text, _⟩, h => by
    rw [Element.HtmlPlain] at h
    obtain ⟨h1, h2, h3, h4, h5⟩ := h
    have s1 := reads_open name attributes h1 h3 h2
    have s2 : Reads .data (text.getD "").toList .data ((text.getD "").toList.map .char) := by
      cases text with
      | none => simpa using Reads.nil .data
      | some t => simpa using reads_text t.toList (h4 t rfl)
    have s3 := reads_forest children h5
    have s4 := reads_close name h1
    have := s1.trans (s2.trans (s3.trans s4))
    rw [Element.tokens]
    cases text with
    | none => simpa [Element.renderHtml, String.toList_append] using this
    | some t => simpa [Element.renderHtml, String.toList_append] using this
theorem reads_forest : ∀ es : List Element, HtmlPlainAll es → Reads .data (renderHtmlAll es).toList .data (tokensAll quoted es)
  | [], _ => by simpa [renderHtmlAll, tokensAll] using Reads.nil .data
  | c :: cs, h => by
    rw [HtmlPlainAll] at h
    have := (reads_tree c h.1).trans (reads_forest cs h.2)
    rw [renderHtmlAll, tokensAll]
    simpa [String.toList_append] using this
end

/-! ## C91 -/

/-- **C91 (what holds).** A browser reads the rendered HTML of a tree without special characters as that tree: its tags, nested in the same way, its text
and its attribute values; but every attribute name appears with quotation marks around it. -/
theorem C91_read_back_partial (e : Element) (h : e.HtmlPlain) : tokenizeHtml e.renderHtml = some (e.tokens fun k => "\"" ++ k ++ "\"") := by
  have := reads_tree e h []
  rw [List.append_nil] at this
  unfold tokenizeHtml
  rw [this]
  have hq : (fun k : String => "\"" ++ k ++ "\"") = quoted := rfl
  simp [htmlTokens, htmlEof, hq]

/-- **C91 is false**: no element with an attribute comes back: the browser reads another start tag than the element's. -/
theorem C91_attributes_refuted (e : Element) (h : e.HtmlPlain) (k v : String) (hk : (k, v) ∈ e.attributes) :
    ∃ attrs rest, tokenizeHtml e.renderHtml = some (.startTag e.name.toList attrs :: rest) ∧
      (∀ p ∈ attrs, ∃ q ∈ e.attributes, p.1 = '"' :: (q.1.toList ++ ['"']) ∧ p.2 = q.2.toList) ∧
      tokenizeHtml e.renderHtml ≠ some (e.tokens id) := by
  rw [C91_read_back_partial e h]
  cases e with
  | mk _ name attributes _ children text _ =>
    simp only at hk
    rw [Element.tokens, Element.tokens]
    refine ⟨_, _, rfl, ?_, ?_⟩
    · intro p hp
      obtain ⟨q, hq, rfl⟩ := List.mem_map.mp hp
      exact ⟨q, hq, by simp [String.toList_append], rfl⟩
    · intro e
      simp only [Option.some.injEq, List.cons.injEq, HtmlToken.startTag.injEq, true_and] at e
      have := List.map_inj_left.mp e.1 _ hk
      simp only [id, Prod.mk.injEq, and_true] at this
      have := congrArg List.length this
      simp [String.toList_append] at this
      omega

/-! ## C70 -/

theorem chars_prefix {a b : List Char} {x y : List HtmlToken} (hx : ∀ c r, x ≠ .char c :: r) (hy : ∀ c r, y ≠ .char c :: r)
    (h : a.map .char ++ x = b.map HtmlToken.char ++ y) : a = b ∧ x = y := by
  induction a generalizing b with
  | nil =>
    cases b with
    | nil => exact ⟨rfl, h⟩
    | cons c b => exact absurd h (hx c _)
  | cons c a ih =>
    cases b with
    | nil => exact absurd h.symm (hy c _)
    | cons d b =>
      simp only [List.map_cons, List.cons_append, List.cons.injEq, HtmlToken.char.injEq] at h
      obtain ⟨rfl, h⟩ := h
      obtain ⟨h1, h2⟩ := ih h
      exact ⟨by rw [h1], h2⟩

theorem map_inj {α β : Type} {f : α → β} (hf : ∀ a b, f a = f b → a = b) {l l' : List α} (h : l.map f = l'.map f) : l = l' := by
  induction l generalizing l' with
  | nil => cases l' <;> simp_all
  | cons a l ih =>
    cases l' with
    | nil => simp at h
    | cons b l' =>
      simp only [List.map_cons, List.cons.injEq] at h
      rw [hf _ _ h.1, ih h.2]

theorem tokensAll_head (es : List Element) (n : List Char) (r : List HtmlToken) : ∀ c r', tokensAll quoted es ++ (.endTag n :: r) ≠ .char c :: r' := by
  intro c r' h
  cases es with
  | nil => simp [tokensAll] at h
  | cons e es =>
    cases e
    simp [tokensAll, Element.tokens] at h

mutual
theorem tokens_inj : ∀ (e e' : Element) (r r' : List HtmlToken), e.tokens quoted ++ r = e'.tokens quoted ++ r' → e.SameHtml e' ∧ r = r'
  | ⟨_, name, attributes, _, children, text, _⟩, ⟨_, name', attributes', _, children', text', _⟩, r, r', h => by
    simp only [Element.tokens, List.cons_append, List.append_assoc, List.cons.injEq, HtmlToken.startTag.injEq, List.nil_append] at h
    obtain ⟨⟨h1, h2⟩, h3⟩ := h
    obtain ⟨h4, h5⟩ := chars_prefix (tokensAll_head children _ _) (tokensAll_head children' _ _) h3
    obtain ⟨h6, h7⟩ := tokensAll_inj children children' _ _ _ _ h5
    rw [Element.SameHtml]
    refine ⟨⟨String.toList_inj.mp h1, ?_, String.toList_inj.mp h4, h6⟩, h7⟩
    refine map_inj ?_ h2
    intro p q e
    simp only [Prod.mk.injEq] at e
    exact Prod.ext (quoted_inj (String.toList_inj.mp e.1)) (String.toList_inj.mp e.2)
theorem tokensAll_inj : ∀ (es es' : List Element) (n n' : List Char) (r r' : List HtmlToken),
    tokensAll quoted es ++ (.endTag n :: r) = tokensAll quoted es' ++ (.endTag n' :: r') → SameHtmlAll es es' ∧ r = r'
  | [], [], _, _, _, _, h => by
    simp only [tokensAll, List.nil_append, List.cons.injEq] at h
    exact ⟨by rw [SameHtmlAll]; trivial, h.2⟩
  | [], e :: es', _, _, _, _, h => by
    cases e
    simp [tokensAll, Element.tokens] at h
  | e :: es, [], _, _, _, _, h => by
    cases e
    simp [tokensAll, Element.tokens] at h
  | e :: es, e' :: es', n, n', r, r', h => by
    simp only [tokensAll, List.append_assoc] at h
    obtain ⟨h1, h2⟩ := tokens_inj e e' _ _ h
    obtain ⟨h3, h4⟩ := tokensAll_inj es es' n n' r r' h2
    exact ⟨by rw [SameHtmlAll]; exact ⟨h1, h3⟩, h4⟩
end

/-- **C70 (what holds).** Two trees without special characters that render to the same HTML have the same tags, attributes, text and children. -/
theorem C70_distinct_partial (e e' : Element) (h : e.HtmlPlain) (h' : e'.HtmlPlain) (heq : e.renderHtml = e'.renderHtml) : e.SameHtml e' := by
  have h1 := C91_read_back_partial e h
  have h2 := C91_read_back_partial e' h'
  rw [heq, h2] at h1
  have hq : (fun k : String => "\"" ++ k ++ "\"") = quoted := rfl
  simp only [hq, Option.some.injEq] at h1
  exact (tokens_inj e e' [] [] (by simp [h1])).1

/-- **C70 is false**: nothing is escaped.  Children can be replaced by a text that spells them, and an attribute by an attribute whose value spells it. -/
theorem C70_escape_refuted (id : Nat) (name : String) (attributes : Headers) (ls : List ListenerRef) (key : Option String) :
    (∀ children, children ≠ [] → ∀ t, t = renderHtmlAll children →
      Element.renderHtml ⟨id, name, attributes, ls, children, none, key⟩ = Element.renderHtml ⟨id, name, attributes, ls, [], some t, key⟩ ∧
      ¬ Element.SameHtml ⟨id, name, attributes, ls, children, none, key⟩ ⟨id, name, attributes, ls, [], some t, key⟩) ∧
    (∀ k v k' v', Element.renderHtml ⟨id, name, (k, v) :: (k', v') :: attributes, ls, [], none, key⟩ =
        Element.renderHtml ⟨id, name, (k, v ++ "\" \"" ++ k' ++ "\"=\"" ++ v') :: attributes, ls, [], none, key⟩ ∧
      ¬ Element.SameHtml ⟨id, name, (k, v) :: (k', v') :: attributes, ls, [], none, key⟩
        ⟨id, name, (k, v ++ "\" \"" ++ k' ++ "\"=\"" ++ v') :: attributes, ls, [], none, key⟩) := by
  refine ⟨?_, ?_⟩
  · rintro children hc t rfl
    refine ⟨?_, ?_⟩
    · simp [Element.renderHtml, renderHtmlAll]
    · intro h
      cases children with
      | nil => exact hc rfl
      | cons c cs => simp [Element.SameHtml, SameHtmlAll] at h
  · intro k v k' v'
    refine ⟨?_, ?_⟩
    · apply String.toList_inj.mp
      simp [Element.renderHtml, writeOpeningTag, writeAttributes, String.toList_append]
    · intro h
      rw [Element.SameHtml] at h
      have := congrArg List.length h.2.1
      simp at this

/-- C70 and C91 are not vacuous: a `div` with a class, and a `p` with text inside. -/
def htmlSample : Element := ⟨0, "div", [("class", "a b")], [], [⟨1, "p", [], [], [], some "it's > here", none⟩], some "hi", none⟩

example : htmlSample.HtmlPlain ∧ htmlSample.renderHtml = "<div \"class\"=\"a b\"  >hi<p  >it's > here</p></div>" := by
  refine ⟨?_, by decide +kernel⟩
  have h1 : PlainTag "div" := ⟨⟨'d', ['i', 'v'], by decide +kernel, by decide⟩, by decide +kernel, by decide +kernel⟩
  have h2 : PlainTag "p" := ⟨⟨'p', [], by decide +kernel, by decide⟩, by decide +kernel, by decide +kernel⟩
  have h3 : ∀ c ∈ "class".toList, plainNameChar c = true := by decide +kernel
  have h4 : ∀ c ∈ "a b".toList, c ≠ '"' ∧ c ≠ '&' ∧ c ≠ '\x00' ∧ c ≠ '\r' := by decide +kernel
  have h5 : ∀ c ∈ "hi".toList, c ≠ '<' ∧ c ≠ '&' ∧ c ≠ '\r' := by decide +kernel
  have h6 : ∀ c ∈ "it's > here".toList, c ≠ '<' ∧ c ≠ '&' ∧ c ≠ '\r' := by decide +kernel
  simp only [htmlSample, Element.HtmlPlain, HtmlPlainAll]
  refine ⟨h1, by simp, ?_, ?_, ⟨h2, by simp, by simp, ?_, trivial⟩, trivial⟩
  · intro p hp
    simp only [List.mem_singleton] at hp
    subst hp
    exact ⟨h3, h4⟩
  · intro t ht
    cases ht
    exact h5
  · intro t ht
    cases ht
    exact h6

end Puck
