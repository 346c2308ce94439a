import Verif.Src.ProgLemmas
namespace Verif.Src

theorem segNs_eq (rest : List Ident) (ns : Ns) : segNs rest ns = if rest = [] then ns else .type := by
  cases rest <;> rfl

/-! ### Strictness -/

theorem walk_strict {ns} : ∀ {segs p}, (walk ns p segs).Strict
  | [], _ => trivial
  | _ :: _, _ => by
    refine strict_bind strict_lookup ?_ rfl
    intro a
    cases a with
    | error e => trivial
    | ok q => exact walk_strict

theorem resolveCrate_strict {ir p path ns} : (resolveCrate ir p path ns).Strict := by
  unfold resolveCrate
  split
  · trivial
  · split
    · exact walk_strict
    · split <;> trivial

theorem resolveGlobal_strict {ir p path ns} : (resolveGlobal ir p path ns).Strict := by
  unfold resolveGlobal
  split
  · split
    · split
      · trivial
      · exact resolveCrate_strict
    · trivial
  · exact resolveCrate_strict

theorem resolve_strict {ir p path ns} : (resolve ir p path ns).Strict := by
  unfold resolve
  split
  · exact resolveGlobal_strict
  · split
    · trivial
    · refine strict_bind strict_lookup ?_ rfl
      intro a
      split
      · exact walk_strict
      · exact resolveGlobal_strict
      · trivial

theorem childSpecial_strict {ir p items ident ns} : (childSpecial ir p items ident ns).Strict := by
  unfold childSpecial
  split
  · trivial
  · trivial
  · refine strict_bind resolve_strict ?_ rfl
    intro a
    cases a <;> trivial
  · trivial

theorem scanItems_strict {ir p ident ns} : ∀ {items found}, (scanItems ir p ident ns found items).Strict
  | [], _ => trivial
  | i :: is, found => by
    unfold scanItems
    split
    · split
      · split
        · trivial
        · exact scanItems_strict
      · exact scanItems_strict
    · split
      · split
        · refine strict_bind resolve_strict ?_ rfl
          intro a
          split
          · split
            · exact scanItems_strict
            · trivial
          · exact scanItems_strict
          · exact scanItems_strict
          · trivial
        · exact scanItems_strict
      · exact scanItems_strict

theorem scanGlobs_strict {ir p ident ns} : ∀ {gs found}, (scanGlobs ir p ident ns found gs).Strict
  | [], _ => trivial
  | g :: gs, found => by
    unfold scanGlobs
    refine strict_bind resolve_strict ?_ rfl
    intro a
    split
    · split
      · exact scanGlobs_strict
      · trivial
    · exact scanGlobs_strict
    · exact scanGlobs_strict
    · trivial

theorem childPlain_strict {ir p items ident ns} : (childPlain ir p items ident ns).Strict := by
  unfold childPlain
  refine strict_bind scanItems_strict ?_ rfl
  intro a
  split
  · trivial
  · trivial
  · trivial
  · refine strict_bind scanGlobs_strict ?_ rfl
    intro a
    split <;> trivial

theorem childBody_strict {ir p items ident ns} : (childBody ir p items ident ns).Strict := by
  unfold childBody
  split
  · trivial
  · refine strict_bind childSpecial_strict ?_ rfl
    intro a
    split
    · trivial
    · trivial
    · exact childPlain_strict

/-- More fuel does not change an answer of the reference. -/
theorem childRef_mono {ir} : ∀ {k p ident ns}, childRef ir k p ident ns ≠ .error .fuel →
    childRef ir (k + 1) p ident ns = childRef ir k p ident ns
  | 0, _, _, _, h => absurd rfl h
  | k + 1, p, ident, ns, h => by
    rw [childRef] at h ⊢
    split
    · rw [childRef]; simp [*]
    · rename_i heq
      rw [heq] at h
      rw [childRef, heq]
      exact strict_mono (fun p i ns hne => childRef_mono hne) childBody_strict h

theorem childRef_le {ir k k' p ident ns} (hle : k ≤ k') (h : childRef ir k p ident ns ≠ .error .fuel) :
    childRef ir k' p ident ns = childRef ir k p ident ns := by
  induction hle with
  | refl => rfl
  | step _ ih => rw [childRef_mono (by rw [ih]; exact h), ih]

/-! ### What is asked for and what is found -/

/-- The errors that a lookup can give. -/
def Err.fromLookup : Err → Bool
  | .notFound | .cycleDetected | .superInvalid | .crateInvalid | .nameConflict | .internal | .panic => true
  | _ => false

def Plain {α : Type} (r : Res α) : Prop := ∀ e, r = .error e → e.fromLookup = true

theorem plain_fuel {α : Type} {r : Res α} (h : Plain r) : r ≠ .error .fuel := fun h' => nomatch h _ h'

section
variable (ir : Ir) (S : List Ident)

/-- Only names from `S` are asked for, at places in the program. -/
def AskOk (p : RPath) (i : Ident) (_ : Ns) : Prop := Canon ir p ∧ i ∈ S

/-- An answer has an error of a lookup, or what is found is right. -/
def AnsOk (p : RPath) (i : Ident) (ns : Ns) (r : Res RPath) : Prop :=
  Plain r ∧ ∀ q, r = .ok q → Canon ir q ∧ Names ir p i ns q

def PathOk (p : RPath) (path : Path) (ns : Ns) (r : Res RPath) : Prop :=
  Plain r ∧ ∀ q, r = .ok q → Canon ir q ∧ Denotes ir p path ns q

def WalkOk (p : RPath) (segs : List Ident) (ns : Ns) (r : Res RPath) : Prop :=
  Plain r ∧ ∀ q, r = .ok q → Canon ir q ∧ Walks ir p segs ns q

variable {ir S}

theorem err_lookup {p : RPath} {e : Err} (h : e.fromLookup = true) : (RPath.err p e).fromLookup = true := by
  unfold RPath.err; split
  · exact h
  · rfl

theorem bad {α : Type} {p : RPath} {e : Err} {R : α → Prop} (h : e.fromLookup = true) :
    Plain (Except.error (RPath.err p e) : Res α) ∧
      ∀ q, (Except.error (RPath.err p e) : Res α) = .ok q → R q :=
  ⟨fun _ h' => by cases h'; exact err_lookup h, fun _ h' => nomatch h'⟩

theorem bad' {α : Type} {e : Err} {R : α → Prop} (h : Plain (Except.error e : Res α)) :
    Plain (Except.error e : Res α) ∧ ∀ q, (Except.error e : Res α) = .ok q → R q :=
  ⟨h, fun _ h' => nomatch h'⟩

theorem err_cast {α β : Type} {e : Err} (h : Plain (Except.error e : Res α)) :
    Plain (Except.error e : Res β) := fun _ h' => h _ (by cases h'; rfl)

theorem good {α : Type} {a : α} {R : α → Prop} (h : R a) :
    Plain (Except.ok a : Res α) ∧ ∀ q, (Except.ok a : Res α) = .ok q → R q :=
  ⟨nofun, fun _ h' => by cases h'; exact h⟩

theorem walk_wp {ns} : ∀ {segs p}, Canon ir p → (∀ i ∈ segs, i ∈ S) →
    (walk ns p segs).wp (AskOk ir S) (AnsOk ir) (WalkOk ir p segs ns)
  | [], p, hp, _ => good ⟨hp, .nil⟩
  | seg :: rest, p, hp, hS => by
    refine ⟨⟨hp, hS _ (.head _)⟩, fun r hr => ?_⟩
    cases r with
    | error e => exact bad' hr.1
    | ok q =>
      have hq := hr.2 q rfl
      refine wp_mono ?_ (walk_wp (p := q) hq.1 fun i hi => hS i (.tail _ hi))
      intro a ha
      refine ⟨ha.1, fun r hr' => ?_⟩
      obtain ⟨h1, h2⟩ := ha.2 r hr'
      exact ⟨h1, .cons (segNs_eq rest ns ▸ hq.2) h2⟩

theorem resolveCrate_wp {p path ns} (hS : ∀ i ∈ path.segs, i ∈ S) :
    (resolveCrate ir p path ns).wp (AskOk ir S) (AnsOk ir) (PathOk ir p path ns) := by
  obtain ⟨leading, segs⟩ := path
  unfold resolveCrate
  split
  · exact bad (by decide)
  · rename_i first rest heq
    subst heq
    split
    · rename_i root hroot
      refine wp_mono ?_ (walk_wp (.root hroot) fun i hi => hS i (.tail _ hi))
      intro a ha
      exact ⟨ha.1, fun q hq => ⟨(ha.2 q hq).1, .crate hroot (ha.2 q hq).2⟩⟩
    · split
      · rename_i b hb
        refine good ⟨.builtin b, .builtin ?_⟩
        unfold getBuiltin at hb
        obtain ⟨e, he, rfl⟩ := Option.map_eq_some_iff.1 hb
        have h1 := List.find?_some he
        have h2 := List.mem_of_find?_eq_some he
        rw [← eq_of_beq h1]
        exact h2
      · exact bad (by decide)

theorem lookupUdl_some {items ident i} (h : lookupUdl items ident = some i) :
    ∃ uid ty, i = .udl uid ty ∧ .udl uid ty ∈ items ∧ udlName ty = some ident.name := by
  have h1 := List.find?_some h
  have h2 := List.mem_of_find?_eq_some h
  split at h1
  · rename_i uid ty
    split at h1
    · rename_i n hn
      exact ⟨uid, ty, rfl, h2, by rw [hn, eq_of_beq h1]⟩
    · exact nomatch h1
  · exact nomatch h1

theorem canon_root {m : Item} {p : RPath} (h : Canon ir (m :: p)) : Canon ir [m] := by
  generalize hq : m :: p = q at h
  induction h generalizing p with
  | root h => cases hq; exact .root h
  | builtin b => cases hq; exact .builtin b
  | @item p' _ _ _ _ i h hl hi ih =>
    cases p' with
    | nil => cases hl
    | cons a as => cases hq; exact ih rfl

theorem canon_ne {p : RPath} (h : Canon ir p) : p ≠ [] := by
  cases h <;> simp

theorem resolveGlobal_wp {p path ns} (hp : Canon ir p) (hS : ∀ i ∈ path.segs, i ∈ S) :
    (resolveGlobal ir p path ns).wp (AskOk ir S) (AnsOk ir) (PathOk ir p path ns) := by
  unfold resolveGlobal
  split
  · rename_i first heq
    split
    · rename_i id ident vis items rest
      split
      · rename_i item hi
        obtain ⟨uid, ty, rfl, hmem, hn⟩ := lookupUdl_some hi
        obtain ⟨leading, segs⟩ := path
        cases heq
        refine good ⟨?_, ?_⟩
        · exact Canon.item (canon_root hp) rfl hmem
        · exact .udl rfl hmem hn
      · exact resolveCrate_wp hS
    · exact bad' (fun _ h => by cases h; rfl)
  · exact resolveCrate_wp hS

theorem resolve_wp {p path ns} (hp : Canon ir p) (hS : ∀ i ∈ path.segs, i ∈ S) :
    (resolve ir p path ns).wp (AskOk ir S) (AnsOk ir) (PathOk ir p path ns) := by
  unfold resolve
  split
  · exact resolveGlobal_wp hp hS
  · rename_i hlead
    split
    · exact bad (by decide)
    · rename_i seg rest heq
      obtain ⟨leading, segs⟩ := path
      dsimp only at heq hlead hS; subst heq
      have hl : leading = false := by cases leading <;> simp_all
      subst hl
      refine ⟨⟨hp, hS _ (.head _)⟩, fun r hr => ?_⟩
      show Prog.wp _ _ _ (match r with | .ok q => walk ns q rest | .error .notFound => _ | .error e => _)
      split
      · rename_i q
        have hq := hr.2 q rfl
        refine wp_mono ?_ (walk_wp (p := q) hq.1 fun i hi => hS i (.tail _ hi))
        intro a ha
        refine ⟨ha.1, fun r hr' => ?_⟩
        obtain ⟨h1, h2⟩ := ha.2 r hr'
        exact ⟨h1, .relative (by simp) (.cons (segNs_eq rest ns ▸ hq.2) h2)⟩
      · exact resolveGlobal_wp hp hS
      · exact bad' hr.1

theorem findSpecial_some {p : RPath} {ident : Ident} {ns : Ns} : ∀ {items : List Item} {found i},
    findSpecial p ident ns found items = .ok (some i) →
    found = some i ∨ (i ∈ items ∧ i.isSpecial = true ∧ ns.matches i = true ∧ i.ident = some ident)
  | [], found, i, h => by cases h; exact .inl rfl
  | a :: as, found, i, h => by
    rw [findSpecial.eq_def] at h
    dsimp only at h
    split at h
    · rename_i hc
      split at h
      · rcases findSpecial_some h with h | h
        · cases h
          simp only [Bool.and_eq_true, beq_iff_eq] at hc
          exact .inr ⟨.head _, hc.1.1, hc.1.2, hc.2⟩
        · exact .inr ⟨.tail _ h.1, h.2⟩
      · exact nomatch h
    · rcases findSpecial_some h with h | h
      · exact .inl h
      · exact .inr ⟨.tail _ h.1, h.2⟩

theorem findSpecial_none {p : RPath} {ident : Ident} {ns : Ns} : ∀ {items : List Item} {found},
    findSpecial p ident ns found items = .ok none →
    found = none ∧ ∀ i ∈ items, ¬ (i.isSpecial = true ∧ ns.matches i = true ∧ i.ident = some ident)
  | [], found, h => by cases h; exact ⟨rfl, nofun⟩
  | a :: as, found, h => by
    rw [findSpecial.eq_def] at h
    dsimp only at h
    split at h
    · split at h
      · exact nomatch (findSpecial_none h).1
      · exact nomatch h
    · rename_i hc
      have h' := findSpecial_none h
      refine ⟨h'.1, fun i hi hall => ?_⟩
      cases hi with
      | head => simp only [Bool.and_eq_true, beq_iff_eq] at hc; exact hc ⟨⟨hall.1, hall.2.1⟩, hall.2.2⟩
      | tail _ hi => exact h'.2 i hi hall

theorem findSpecial_err {p : RPath} {ident : Ident} {ns : Ns} : ∀ {items : List Item} {found e},
    findSpecial p ident ns found items = .error e → e.fromLookup = true
  | a :: as, found, e, h => by
    rw [findSpecial.eq_def] at h
    dsimp only at h
    split at h
    · split at h
      · exact findSpecial_err h
      · cases h; exact err_lookup (by decide)
    · exact findSpecial_err h

/-- The result of a search that may find nothing. -/
def OptOk (p : RPath) (i : Ident) (ns : Ns) (r : Res (Option RPath)) : Prop :=
  Plain r ∧ ∀ o, r = .ok o → ∀ q, o = some q → Canon ir q ∧ Names ir p i ns q

variable {p : RPath} {id : Nat} {mi : Ident} {vis : Vis} {items : List Item}

theorem useRemote_mem (hS : ∀ i ∈ itemsUseIdents items, i ∈ S) {i : Item} (h : i ∈ items) :
    ∀ x ∈ i.useIdents, x ∈ S := by
  induction items with
  | nil => cases h
  | cons a as ih =>
    cases h with
    | head => exact fun x hx => hS x (by rw [itemsUseIdents]; exact List.mem_append_left _ hx)
    | tail _ h =>
      exact ih (fun x hx => hS x (by rw [itemsUseIdents]; exact List.mem_append_right _ hx)) h

theorem childSpecial_wp {ident ns} (hp : Canon ir p) (hl : p.getLast? = some (.module id mi vis items))
    (hS : ∀ i ∈ itemsUseIdents items, i ∈ S) :
    (childSpecial ir p items ident.unraw ns).wp (AskOk ir S) (AnsOk ir) (fun r =>
      OptOk (ir := ir) p ident ns r ∧ (r = .ok none → findSpecial p ident.unraw ns none items = .ok none)) := by
  unfold childSpecial
  split
  · rename_i e he
    exact ⟨⟨fun _ h => by cases h; exact findSpecial_err he, nofun⟩, nofun⟩
  · exact ⟨⟨nofun, fun o h q hq => by cases h; cases hq⟩, fun _ => by assumption⟩
  · rename_i rid path he
    rcases findSpecial_some he with h | ⟨hmem, _, _, hid⟩
    · cases h
    · refine wp_bind (wp_mono ?_ (resolve_wp hp (useRemote_mem hS hmem)))
      intro a ha
      cases a with
      | error e => exact ⟨⟨err_cast ha.1, nofun⟩, nofun⟩
      | ok q =>
        refine ⟨⟨nofun, fun o h q' hq => ?_⟩, nofun⟩
        cases h; cases hq
        exact ⟨(ha.2 _ rfl).1, .remote hl hmem hid (ha.2 _ rfl).2⟩
  · rename_i item hne he
    rcases findSpecial_some he with h | ⟨hmem, hsp, hm, hid⟩
    · cases h
    · refine ⟨⟨nofun, fun o h q' hq => ?_⟩, nofun⟩
      cases h; cases hq
      refine ⟨.item hp hl hmem, .declared hl hmem ?_ hid hm⟩
      intro rid path hc
      subst hc
      exact hne rid path rfl

/-- What the loop over the items may have found. -/
def FoundOk (p : RPath) (items : List Item) (ident : Ident) (ns : Ns) : Option Found → Prop
  | none => True
  | some (.item i) => i ∈ items ∧ i.ident = some ident.unraw ∧ ns.matches i = true
  | some (.use q) => Canon ir q ∧ Names ir p ident ns q

theorem addUse_ok {ns found q r} (h : addUse p ns found q = .ok r) :
    r = found ∨ r = some (.use q) ∧ ∀ i, q.getLast? = some i → ns.matches i = true := by
  unfold addUse at h
  split at h
  · exact nomatch h
  · rename_i last hlast
    split at h
    · rename_i hm
      split at h
      · split at h
        · cases h; exact .inl rfl
        · exact nomatch h
      · cases h; exact .inr ⟨rfl, fun i hi => by rw [hlast] at hi; cases hi; exact hm⟩
    · cases h; exact .inl rfl

theorem addUse_err {ns found q e} (h : addUse p ns found q = .error e) : e.fromLookup = true := by
  unfold addUse at h
  split at h
  · cases h; decide
  · split at h
    · split at h
      · split at h
        · exact nomatch h
        · cases h; exact err_lookup (by decide)
      · exact nomatch h
    · exact nomatch h

theorem scanItems_wp {ident ns} (hp : Canon ir p) (hl : p.getLast? = some (.module id mi vis items))
    (hS : ∀ i ∈ itemsUseIdents items, i ∈ S) :
    ∀ {is found}, (∀ i ∈ is, i ∈ items) → FoundOk (ir := ir) p items ident ns found →
    (scanItems ir p ident.unraw ns found is).wp (AskOk ir S) (AnsOk ir)
      (fun r => Plain r ∧ ∀ o, r = .ok o → FoundOk (ir := ir) p items ident ns o)
  | [], found, _, hf => ⟨nofun, fun o h => by cases h; exact hf⟩
  | i :: is, found, hsub, hf => by
    have ih := fun {found} hf => scanItems_wp (ident := ident) (ns := ns) hp hl hS (is := is) (found := found)
      (fun i hi => hsub i (.tail _ hi)) hf
    have hmem := hsub i (.head _)
    unfold scanItems
    split
    · rename_i itemIdent hid
      split
      · rename_i hc
        simp only [Bool.and_eq_true, beq_iff_eq] at hc
        split
        · exact ⟨fun _ h => by cases h; exact err_lookup (by decide), nofun⟩
        · exact ih ⟨hmem, by rw [hid, hc.1], hc.2⟩
      · exact ih hf
    · split
      · rename_i uid uvis path useIdent _
        split
        · rename_i hc
          have hc := eq_of_beq hc
          subst hc
          refine wp_bind (wp_mono ?_ (resolve_wp hp (useRemote_mem hS hmem)))
          intro a ha
          split
          · rename_i q
            have hq := ha.2 q rfl
            split
            · rename_i f hfo
              rcases addUse_ok hfo with h | ⟨h, hm⟩
              · rw [h]; exact ih hf
              · rw [h]; exact ih ⟨hq.1, .imported hl hmem hq.2 hm⟩
            · rename_i e he
              exact ⟨fun _ h => by cases h; exact addUse_err he, nofun⟩
          · exact ih hf
          · exact ih hf
          · exact ⟨err_cast ha.1, nofun⟩
        · exact ih hf
      · exact ih hf

theorem addGlob_ok {found q r} (h : addGlob p found q = .ok r) : r = found ∨ r = some q := by
  unfold addGlob at h
  split at h
  · cases h; exact .inr rfl
  · split at h
    · cases h; exact .inl rfl
    · exact nomatch h

theorem addGlob_err {found q e} (h : addGlob p found q = .error e) : e.fromLookup = true := by
  unfold addGlob at h
  split at h
  · exact nomatch h
  · split at h
    · exact nomatch h
    · cases h; exact err_lookup (by decide)

theorem mem_globs {items : List Item} {g} (h : g ∈ globs items) : ∃ uid uvis, .useGlob uid uvis g ∈ items := by
  obtain ⟨i, hi, h⟩ := List.mem_filterMap.1 h
  split at h
  · cases h; exact ⟨_, _, hi⟩
  · exact nomatch h

theorem scanGlobs_wp {ident ns} (hp : Canon ir p) (hl : p.getLast? = some (.module id mi vis items))
    (hS : ∀ i ∈ itemsUseIdents items, i ∈ S) (hident : ident.unraw ∈ S) :
    ∀ {gs found}, (∀ g ∈ gs, g ∈ globs items) → (∀ q, found = some q → Canon ir q ∧ Names ir p ident ns q) →
    (scanGlobs ir p ident.unraw ns found gs).wp (AskOk ir S) (AnsOk ir) (OptOk (ir := ir) p ident ns)
  | [], found, _, hf => ⟨nofun, fun o h q hq => by cases h; exact hf q hq⟩
  | g :: gs, found, hsub, hf => by
    have ih := fun {found} hf => scanGlobs_wp (ident := ident) (ns := ns) hp hl hS hident (gs := gs)
      (found := found) (fun i hi => hsub i (.tail _ hi)) hf
    obtain ⟨uid, uvis, hmem⟩ := mem_globs (hsub g (.head _))
    unfold scanGlobs
    refine wp_bind (wp_mono ?_ (resolve_wp hp ?_))
    · intro a ha
      split
      · rename_i q
        have hq := ha.2 q rfl
        split
        · rename_i f hfo
          rcases addGlob_ok hfo with h | h
          · rw [h]; exact ih hf
          · rw [h]; exact ih fun q' h' => by cases h'; exact ⟨hq.1, .glob hl hmem hq.2⟩
        · rename_i e he
          exact ⟨fun _ h => by cases h; exact addGlob_err he, nofun⟩
      · exact ih hf
      · exact ih hf
      · exact ⟨err_cast ha.1, nofun⟩
    · intro i hi
      rcases List.mem_append.1 hi with hi | hi
      · exact useRemote_mem hS hmem i hi
      · cases hi with
        | head => exact hident
        | tail _ h => cases h

theorem childUdl_some {ident ns i} (h : childUdl items ident ns = some i) :
    ∃ uid ty, i = .udl uid ty ∧ .udl uid ty ∈ items ∧ udlName ty = some ident.name ∧ ns.matches i = true := by
  unfold childUdl at h
  split at h
  · rename_i item hi
    split at h
    · cases h
      obtain ⟨uid, ty, rfl, h1, h2⟩ := lookupUdl_some hi
      exact ⟨uid, ty, rfl, h1, h2, by assumption⟩
    · exact nomatch h
  · exact nomatch h

theorem childBody_wp {ident ns} (hp : Canon ir p) (hl : p.getLast? = some (.module id mi vis items))
    (hS : ∀ i ∈ itemsUseIdents items, i ∈ S) (hident : ident.unraw ∈ S) :
    (childBody ir p items ident ns).wp (AskOk ir S) (AnsOk ir) (AnsOk ir p ident ns) := by
  unfold childBody
  split
  · rename_i item hi
    obtain ⟨uid, ty, rfl, hmem, hn, hm⟩ := childUdl_some hi
    refine good ⟨.item hp hl hmem, .udl hl hmem hn ?_⟩
    cases ns <;> simp_all [Ns.matches]
  · refine wp_bind (wp_mono ?_ (childSpecial_wp hp hl hS))
    intro a ha
    split
    · exact bad' (err_cast ha.1.1)
    · exact good (ha.1.2 _ rfl _ rfl)
    · have hnone := (findSpecial_none (ha.2 rfl)).2
      unfold childPlain
      refine wp_bind (wp_mono ?_ (scanItems_wp (ident := ident) hp hl hS (fun i hi => hi) (found := none) trivial))
      intro a ha
      split
      · exact bad' (err_cast ha.1)
      · rename_i i
        obtain ⟨hmem, hid, hm⟩ := ha.2 _ rfl
        refine good ⟨.item hp hl hmem, .declared hl hmem ?_ hid hm⟩
        rintro rid path rfl
        exact hnone _ hmem ⟨rfl, hm, hid⟩
      · exact good (ha.2 _ rfl)
      · refine wp_bind (wp_mono ?_ (scanGlobs_wp (ident := ident) hp hl hS hident (fun g hg => hg) (found := none) nofun))
        intro a ha
        split
        · exact bad' (err_cast ha.1)
        · exact good (ha.2 _ rfl _ rfl)
        · exact bad (by decide)

end
end Verif.Src
