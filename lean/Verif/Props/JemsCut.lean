import Verif.Props.Jems
import Verif.Spec.JemsCut

/-! # C114: a document emitted in part can be completed at any point -/

namespace Mu.Jems
open BBuf hiding isDigit Fits
open Spec

/-! ## Text -/

theorem renderItems_false (l : List Doc) : ∀ r, renderItems false (l ++ r) =
    renderItems false l ++ renderItems false r := by
  induction l with
  | nil => intro r; simp [renderItems]
  | cons x l ih => intro r; simp [renderItems, ih]

theorem renderItems_snoc (l : List Doc) (x : Doc) : renderItems true (l ++ [x]) =
    renderItems true l ++ (if l = [] then [] else [44]) ++ render x := by
  cases l with
  | nil => simp [renderItems]
  | cons y l => simp [renderItems, renderItems_false]

theorem renderMembers_false (l : List (List UInt8 × Doc)) : ∀ r, renderMembers false (l ++ r) =
    renderMembers false l ++ renderMembers false r := by
  induction l with
  | nil => intro r; simp [renderMembers]
  | cons x l ih => intro r; obtain ⟨k, x⟩ := x; simp [renderMembers, ih]

theorem renderMembers_snoc (l : List (List UInt8 × Doc)) (k : List UInt8) (x : Doc) :
    renderMembers true (l ++ [(k, x)]) =
    renderMembers true l ++ (if l = [] then [] else [44]) ++ quote k ++ [58] ++ render x := by
  cases l with
  | nil => simp [renderMembers]
  | cons y l => obtain ⟨k', y⟩ := y; simp [renderMembers, renderMembers_false]

/-- No container is open where a key is expected. -/
def Sofar.Valid : Sofar → Prop
  | .inside _ fs => ∀ g ∈ fs, ∀ l, g ≠ .obj l
  | _ => True

theorem text_fold : ∀ (fs : List Frame) (x : Doc), (∀ g ∈ fs, ∀ l, g ≠ .obj l) →
    fs.reverse.flatMap (fun g => frameText g ++ frameSep g) ++ render x ++ fs.map closer =
      render (fs.foldl fill x) := by
  intro fs
  induction fs with
  | nil => intro x _; simp
  | cons g gs ih =>
    intro x hv
    rw [List.foldl_cons, ← ih _ (fun g hg => hv g (by simp [hg]))]
    simp only [List.reverse_cons, List.flatMap_append, List.flatMap_cons, List.flatMap_nil,
      List.append_nil, List.map_cons]
    have : frameText g ++ frameSep g ++ render x ++ [closer g] = render (fill x g) := by
      cases g with
      | arr l => simp [frameText, frameSep, closer, fill, render, renderItems_snoc]
      | obj l => exact absurd rfl (hv _ (by simp) l)
      | key l k => simp [frameText, frameSep, closer, fill, render, renderMembers_snoc]
    rw [← this]
    simp

theorem text_rest {s : Sofar} (hv : Sofar.Valid s) (h0 : s ≠ .start) :
    s.text ++ s.rest = render s.doc := by
  cases s with
  | start => exact absurd rfl h0
  | done x => simp [Sofar.text, Sofar.rest, Sofar.doc]
  | inside f fs =>
    simp only [Sofar.text, Sofar.rest, Sofar.doc]
    rw [← text_fold fs _ hv]
    cases f with
    | arr l => simp [frameText, closer, fillTop, render]
    | obj l => simp [frameText, closer, fillTop, render]
    | key l k =>
      have e : ascii ":null" = 58 :: ascii "null" := by decide
      simp [frameText, closer, fillTop, render, renderMembers_snoc, e]

/-! ## Steps -/

theorem put_valid {x : Doc} {s s' : Sofar} (h : put x s = some s') (hv : Sofar.Valid s) :
    Sofar.Valid s' := by
  cases s with
  | start => cases h; trivial
  | done y => cases h
  | inside f fs =>
    cases f with
    | arr l => cases h; exact hv
    | obj l => cases x <;> simp only [put] at h <;> cases h; exact hv
    | key l k => cases h; exact hv

theorem enter_valid {f : Frame} {s s' : Sofar} (h : enter f s = some s') (hv : Sofar.Valid s) :
    Sofar.Valid s' := by
  cases s with
  | start => cases h; intro g hg; cases hg
  | done y => cases h
  | inside g fs =>
    have hs : (∀ l, g ≠ .obj l) ∧ s' = .inside f (g :: fs) := by
      cases g <;> cases h <;> exact ⟨(fun l h => by cases h), rfl⟩
    obtain ⟨h1, rfl⟩ := hs
    intro g' hg'
    rcases List.mem_cons.mp hg' with rfl | hg'
    · exact h1
    · exact hv g' hg'

theorem of_valid {fs : List Frame} (h : ∀ g ∈ fs, ∀ l, g ≠ .obj l) : Sofar.Valid (.of fs) := by
  cases fs with
  | nil => trivial
  | cons g gs => exact fun g' hg' => h g' (by simp [hg'])

theorem step_valid {P : Plat} {m : Mem} {s s' : Sofar} {c : Call} (h : Step P m s c s')
    (hv : Sofar.Valid s) : Sofar.Valid s' := by
  induction h with
  | item _ h => exact put_valid h hv
  | arrayOpen h => exact enter_valid h hv
  | objectOpen h => exact enter_valid h hv
  | arrayClose h => exact put_valid h (of_valid hv)
  | objectClose h => exact put_valid h (of_valid hv)
  | key _ _ ih => exact ih hv

theorem step_ne_start {P : Plat} {m : Mem} {s s' : Sofar} {c : Call} (h : Step P m s c s') :
    s' ≠ .start := by
  have hp : ∀ (x : Doc) (s s' : Sofar), put x s = some s' → s' ≠ .start := by
    intro x s s' h hc
    subst hc
    cases s with
    | start => cases h
    | done y => cases h
    | inside f fs => cases f <;> cases x <;> cases h
  have he : ∀ (f : Frame) (s s' : Sofar), enter f s = some s' → s' ≠ .start := by
    intro f s s' h hc
    subst hc
    cases s with
    | start => cases h
    | done y => cases h
    | inside g fs => cases g <;> cases h
  induction h with
  | item _ h => exact hp _ _ _ h
  | arrayOpen h => exact he _ _ _ h
  | objectOpen h => exact he _ _ _ h
  | arrayClose h => exact hp _ _ _ h
  | objectClose h => exact hp _ _ _ h
  | key _ _ ih => exact ih

theorem Spec.Steps.append {P : Plat} {m : Mem} {s s' s'' : Sofar} {a b : List Call}
    (h1 : Steps P m s a s') (h2 : Steps P m s' b s'') : Steps P m s (a ++ b) s'' := by
  induction h1 with
  | nil => exact h2
  | cons hc _ ih => exact .cons hc (ih h2)

theorem Spec.Steps.split {P : Plat} {m : Mem} {b : List Call} {s'' : Sofar} : ∀ {a : List Call} {s : Sofar},
    Steps P m s (a ++ b) s'' → ∃ s', Steps P m s a s' ∧ Steps P m s' b s'' := by
  intro a
  induction a with
  | nil => intro s h; exact ⟨s, .nil, h⟩
  | cons c a ih =>
    intro s h
    cases h with
    | cons hc h =>
      obtain ⟨s', h1, h2⟩ := ih h
      exact ⟨s', .cons hc h1, h2⟩

theorem Spec.Steps.one {P : Plat} {m : Mem} {s s' : Sofar} {c : Call} (h : Step P m s c s') :
    Steps P m s [c] s' := .cons h .nil

/-- Where a container may be opened. -/
theorem enter_of_put {x : Doc} {s s' : Sofar} (hx : ∀ k, x ≠ .str k) (h : put x s = some s') :
    ∃ fs, Sofar.of fs = s ∧ ∀ f, enter f s = some (.inside f fs) := by
  cases s with
  | start => exact ⟨[], rfl, fun f => rfl⟩
  | done y => cases h
  | inside g fs =>
    cases g with
    | arr l => exact ⟨.arr l :: fs, rfl, fun f => rfl⟩
    | obj l => cases x <;> first | exact absurd rfl (hx _) | cases h
    | key l k => exact ⟨.key l k :: fs, rfl, fun f => rfl⟩

mutual
theorem writes_steps {P : Plat} {m : Mem} {x : Doc} {cs : List Call} (h : Writes P m x cs)
    {s s' : Sofar} (hp : put x s = some s') : Steps P m s cs s' := by
  cases h with
  | null => exact .one (.item .null hp)
  | true => exact .one (.item .true hp)
  | false => exact .one (.item .false hp)
  | bool b => exact .one (.item (.bool b) hp)
  | int v h1 h2 => exact .one (.item (.int v h1 h2) hp)
  | number h => exact .one (.item (.number h) hp)
  | string h => exact .one (.item (.string h) hp)
  | bytes h => exact .one (.item (.bytes h) hp)
  | literal h => exact .one (.item (.literal h) hp)
  | @arr l cs h =>
    obtain ⟨fs, rfl, h2⟩ := enter_of_put (fun k h => by cases h) hp
    have h3 := writesItems_steps h [] fs
    refine .cons (.arrayOpen (h2 _)) (h3.append (.one (.arrayClose ?_)))
    simpa using hp
  | @obj l cs h =>
    obtain ⟨fs, rfl, h2⟩ := enter_of_put (fun k h => by cases h) hp
    have h3 := writesMembers_steps h [] fs
    refine .cons (.objectOpen (h2 _)) (h3.append (.one (.objectClose ?_)))
    simpa using hp

theorem writesItems_steps {P : Plat} {m : Mem} {l : List Doc} {cs : List Call}
    (h : WritesItems P m l cs) (l0 : List Doc) (fs : List Frame) :
    Steps P m (.inside (.arr l0) fs) cs (.inside (.arr (l0 ++ l)) fs) := by
  cases h with
  | nil => rw [List.append_nil]; exact .nil
  | @cons x l cs ds h1 h2 =>
    have := (writes_steps h1 (s := .inside (.arr l0) fs) rfl).append
      (writesItems_steps h2 (l0 ++ [x]) fs)
    simpa using this

theorem writesMembers_steps {P : Plat} {m : Mem} {l : List (List UInt8 × Doc)} {cs : List Call}
    (h : WritesMembers P m l cs) (l0 : List (List UInt8 × Doc)) (fs : List Frame) :
    Steps P m (.inside (.obj l0) fs) cs (.inside (.obj (l0 ++ l)) fs) := by
  cases h with
  | nil => rw [List.append_nil]; exact .nil
  | @split k x l ks cs ds hk hx hr =>
    have h1 := writes_steps hk (s := .inside (.obj l0) fs) rfl
    have h2 := writes_steps hx (s := .inside (.key l0 k) fs) rfl
    have := (h1.append h2).append (writesMembers_steps hr (l0 ++ [(k, x)]) fs)
    simpa using this
  | @key k p x i l cs ds hk hx hr =>
    have h2 := writes_steps hx (s := .inside (.key l0 k) fs) rfl
    cases h2 with
    | cons h2 h3 =>
      have := Steps.cons (.key hk h2) (h3.append (writesMembers_steps hr (l0 ++ [(k, x)]) fs))
      simpa using this
end

/-! ## Cutting -/

theorem append_snoc {α : Type} {l r a : List α} {u : α} (h : l ++ r = a ++ [u]) :
    (r = [] ∧ l = a ++ [u]) ∨ ∃ r', r = r' ++ [u] ∧ a = l ++ r' := by
  rcases List.eq_nil_or_concat r with rfl | ⟨r', v, rfl⟩
  · exact .inl ⟨rfl, by simpa using h⟩
  · rw [List.concat_eq_append, ← List.append_assoc] at h
    obtain ⟨h1, h2⟩ := List.append_inj' h rfl
    cases h2
    exact .inr ⟨r', by simp, h1.symm⟩

theorem append_cons_snoc {α : Type} {l r a : List α} {y u : α} (h : l ++ y :: r = a ++ [u]) :
    (r = [] ∧ l = a ∧ y = u) ∨ ∃ r', r = r' ++ [u] ∧ a = l ++ y :: r' := by
  rcases append_snoc (l := l ++ [y]) (r := r) (by simpa using h) with ⟨h1, h2⟩ | ⟨r', h1, h2⟩
  · obtain ⟨h3, h4⟩ := List.append_inj' h2 rfl
    exact .inl ⟨h1, h3, (List.cons.inj h4).1⟩
  · exact .inr ⟨r', h1, by simpa using h2⟩

theorem Spec.Cut.trans {x y : Doc} (h : Cut x y) : ∀ {z : Doc}, Cut y z → Cut x z := by
  induction h with
  | refl x => exact fun h => h
  | items l r =>
    intro z h2
    generalize hy : Doc.arr (l ++ r) = y at h2
    cases h2 with
    | refl => rw [← hy]; exact .items l r
    | items a r2 => cases hy; rw [List.append_assoc]; exact .items l _
    | @item u v a b huv =>
      rcases append_snoc (Doc.arr.inj hy) with ⟨rfl, rfl⟩ | ⟨r', rfl, rfl⟩
      · exact .item a b huv
      · rw [List.append_assoc]; exact .items l _
    | members | member | value => cases hy
  | @item x y l r hxy ih =>
    intro z h2
    generalize hy : Doc.arr (l ++ y :: r) = w at h2
    cases h2 with
    | refl => rw [← hy]; exact .item l r hxy
    | items a r2 =>
      cases hy; rw [List.append_assoc]; exact .item l _ hxy
    | @item u v a b huv =>
      rcases append_cons_snoc (Doc.arr.inj hy) with ⟨rfl, rfl, rfl⟩ | ⟨r', rfl, rfl⟩
      · exact .item l b (ih huv)
      · rw [List.append_assoc]; exact .item l _ hxy
    | members | member | value => cases hy
  | members l r =>
    intro z h2
    generalize hy : Doc.obj (l ++ r) = y at h2
    cases h2 with
    | refl => rw [← hy]; exact .members l r
    | members a r2 => cases hy; rw [List.append_assoc]; exact .members l _
    | @member k u v a b huv =>
      rcases append_snoc (Doc.obj.inj hy) with ⟨rfl, rfl⟩ | ⟨r', rfl, rfl⟩
      · exact .member a b huv
      · rw [List.append_assoc]; exact .members l _
    | @value k v a b =>
      rcases append_snoc (Doc.obj.inj hy) with ⟨rfl, rfl⟩ | ⟨r', rfl, rfl⟩
      · exact .value a b
      · rw [List.append_assoc]; exact .members l _
    | items | item => cases hy
  | @member k x y l r hxy ih =>
    intro z h2
    generalize hy : Doc.obj (l ++ (k, y) :: r) = w at h2
    cases h2 with
    | refl => rw [← hy]; exact .member l r hxy
    | members a r2 => cases hy; rw [List.append_assoc]; exact .member l _ hxy
    | @member k' u v a b huv =>
      rcases append_cons_snoc (Doc.obj.inj hy) with ⟨rfl, rfl, e⟩ | ⟨r', rfl, rfl⟩
      · cases e; exact .member l b (ih huv)
      · rw [List.append_assoc]; exact .member l _ hxy
    | @value k' v a b =>
      rcases append_cons_snoc (Doc.obj.inj hy) with ⟨rfl, rfl, e⟩ | ⟨r', rfl, rfl⟩
      · cases e
        cases hxy
        exact .value l b
      · rw [List.append_assoc]; exact .member l _ hxy
    | items | item => cases hy
  | @value k y l r =>
    intro z h2
    generalize hy : Doc.obj (l ++ (k, y) :: r) = w at h2
    cases h2 with
    | refl => rw [← hy]; exact .value l r
    | members a r2 => cases hy; rw [List.append_assoc]; exact .value l _
    | @member k' u v a b huv =>
      rcases append_cons_snoc (Doc.obj.inj hy) with ⟨rfl, rfl, e⟩ | ⟨r', rfl, rfl⟩
      · cases e; exact .value l b
      · rw [List.append_assoc]; exact .value l _
    | @value k' v a b =>
      rcases append_cons_snoc (Doc.obj.inj hy) with ⟨rfl, rfl, e⟩ | ⟨r', rfl, rfl⟩
      · cases e; exact .value l b
      · rw [List.append_assoc]; exact .value l _
    | items | item => cases hy

theorem fold_cut : ∀ (fs : List Frame) {x y : Doc}, Cut x y → Cut (fs.foldl fill x) (fs.foldl fill y) := by
  intro fs
  induction fs with
  | nil => exact fun h => h
  | cons g gs ih =>
    intro x y h
    refine ih ?_
    cases g with
    | arr l => exact .item l [] h
    | obj l => exact .refl _
    | key l k => exact .member l [] h

theorem put_cut {x : Doc} {f : Frame} {fs : List Frame} {s' : Sofar}
    (h : put x (.inside f fs) = some s') : Cut (Sofar.inside f fs).doc s'.doc := by
  cases f with
  | arr l => cases h; exact fold_cut fs (.items l [x])
  | obj l =>
    cases x <;> simp only [put] at h <;> cases h
    exact fold_cut fs (.members l _)
  | key l k => cases h; exact fold_cut fs (.value l [])

theorem enter_cut {x : Frame} {f : Frame} {fs : List Frame} {s' : Sofar}
    (h : enter x (.inside f fs) = some s') : Cut (Sofar.inside f fs).doc s'.doc := by
  cases f with
  | arr l => cases h; exact fold_cut fs (.items l [fillTop x])
  | obj l => cases h
  | key l k => cases h; exact fold_cut fs (.value l [])

theorem close_doc {x : Doc} {f : Frame} {fs : List Frame} {s' : Sofar} (hf : fillTop f = x)
    (hx : ∀ k, x ≠ .str k) (h : put x (.of fs) = some s') : (Sofar.inside f fs).doc = s'.doc := by
  cases fs with
  | nil => cases h; exact hf
  | cons g gs =>
    simp only [Sofar.doc, List.foldl_cons, hf]
    cases g with
    | arr l => cases h; rfl
    | obj l => cases x <;> first | exact absurd rfl (hx _) | cases h
    | key l k => cases h; rfl

theorem step_cut {P : Plat} {m : Mem} {s s' : Sofar} {c : Call} (h : Step P m s c s')
    (h0 : s ≠ .start) : Cut s.doc s'.doc := by
  induction h with
  | @item i x s s' _ h =>
    cases s with
    | start => exact absurd rfl h0
    | done y => cases h
    | inside f fs => exact put_cut h
  | @arrayOpen s s' h =>
    cases s with
    | start => exact absurd rfl h0
    | done y => cases h
    | inside f fs => exact enter_cut h
  | @objectOpen s s' h =>
    cases s with
    | start => exact absurd rfl h0
    | done y => cases h
    | inside f fs => exact enter_cut h
  | @arrayClose l fs s' h =>
    rw [close_doc (f := .arr l) rfl (fun k h => by cases h) h]; exact .refl _
  | @objectClose l fs s' h =>
    rw [close_doc (f := .obj l) rfl (fun k h => by cases h) h]; exact .refl _
  | @key p k i l fs s' _ _ ih =>
    exact Cut.trans (fold_cut fs (.members l [(k, .null)])) (ih (fun h => by cases h))

theorem steps_cut {P : Plat} {m : Mem} {s s' : Sofar} {cs : List Call} (h : Steps P m s cs s')
    (h0 : s ≠ .start) : Cut s.doc s'.doc := by
  induction h with
  | nil => exact .refl _
  | cons hc _ ih => exact (step_cut hc h0).trans (ih (step_ne_start hc))

/-! ## Bounds -/

theorem depthItems_append (l r : List Doc) :
    depthItems (l ++ r) = max (depthItems l) (depthItems r) := by
  induction l with
  | nil => simp [depthItems]
  | cons x l ih => simp only [List.cons_append, depthItems, ih]; omega

theorem depthMembers_append (l r : List (List UInt8 × Doc)) :
    depthMembers (l ++ r) = max (depthMembers l) (depthMembers r) := by
  induction l with
  | nil => simp [depthMembers]
  | cons x l ih => obtain ⟨k, x⟩ := x; simp only [List.cons_append, depthMembers, ih]; omega

theorem fitsItems_append (M : Nat) (l r : List Doc) :
    FitsItems M (l ++ r) ↔ FitsItems M l ∧ FitsItems M r := by
  induction l with
  | nil => simp [FitsItems]
  | cons x l ih => simp only [List.cons_append, FitsItems, ih, and_assoc]

theorem fitsMembers_append (M : Nat) (l r : List (List UInt8 × Doc)) :
    FitsMembers M (l ++ r) ↔ FitsMembers M l ∧ FitsMembers M r := by
  induction l with
  | nil => simp [FitsMembers]
  | cons x l ih => obtain ⟨k, x⟩ := x; simp only [List.cons_append, FitsMembers, ih, and_assoc]

theorem cut_depth {x y : Doc} (h : Cut x y) : depth x ≤ depth y := by
  induction h with
  | refl => exact Nat.le_refl _
  | items l r => simp only [depth, depthItems_append]; omega
  | item l r _ ih => simp only [depth, depthItems_append, depthItems]; omega
  | members l r => simp only [depth, depthMembers_append]; omega
  | member l r _ ih => simp only [depth, depthMembers_append, depthMembers]; omega
  | value l r => simp only [depth, depthMembers_append, depthMembers]; omega

theorem cut_fits {M : Nat} {x y : Doc} (h : Cut x y) : Fits M y → Fits M x := by
  induction h with
  | refl => exact fun h => h
  | items l r =>
    simp only [Fits, fitsItems_append, List.length_append]
    rintro ⟨h1, h2, h3⟩; exact ⟨by omega, h2⟩
  | item l r _ ih =>
    simp only [Fits, fitsItems_append, FitsItems, List.length_append, List.length_cons, List.length_nil]
    rintro ⟨h1, h2, h3, h4⟩; exact ⟨by omega, h2, ih h3, trivial⟩
  | members l r =>
    simp only [Fits, fitsMembers_append, List.length_append]
    rintro ⟨h1, h2, h3⟩; exact ⟨by omega, h2⟩
  | member l r _ ih =>
    simp only [Fits, fitsMembers_append, FitsMembers, List.length_append, List.length_cons,
      List.length_nil]
    rintro ⟨h1, h2, h3, h4⟩; exact ⟨by omega, h2, ih h3, trivial⟩
  | value l r =>
    simp only [Fits, fitsMembers_append, FitsMembers, List.length_append, List.length_cons,
      List.length_nil]
    rintro ⟨h1, h2, h3, h4⟩; exact ⟨by omega, h2, trivial, trivial⟩

theorem fold_fits {M : Nat} : ∀ (fs : List Frame) {x : Doc}, (∀ g ∈ fs, ∀ l, g ≠ .obj l) →
    Fits M (fs.foldl fill x) → Fits M x := by
  intro fs
  induction fs with
  | nil => exact fun _ h => h
  | cons g gs ih =>
    intro x hv h
    have := ih (fun g hg => hv g (by simp [hg])) h
    cases g with
    | arr l =>
      simp only [fill, Fits, fitsItems_append, FitsItems] at this
      exact this.2.2.1
    | obj l => exact absurd rfl (hv _ (by simp) l)
    | key l k =>
      simp only [fill, Fits, fitsMembers_append, FitsMembers] at this
      exact this.2.2.1

theorem fold_depth : ∀ (fs : List Frame) {x : Doc}, (∀ g ∈ fs, ∀ l, g ≠ .obj l) →
    fs.length + depth x ≤ depth (fs.foldl fill x) := by
  intro fs
  induction fs with
  | nil => intro x _; simp
  | cons g gs ih =>
    intro x hv
    have := ih (x := fill x g) (fun g hg => hv g (by simp [hg]))
    simp only [List.foldl_cons, List.length_cons]
    have h2 : depth x + 1 ≤ depth (fill x g) := by
      cases g with
      | arr l => simp only [fill, depth, depthItems_append, depthItems]; omega
      | obj l => exact absurd rfl (hv _ (by simp) l)
      | key l k => simp only [fill, depth, depthMembers_append, depthMembers]; omega
    omega

/-! ## The emitter follows -/

def isObj : Frame → Bool
  | .arr _ => false
  | _ => true

def count : Frame → Nat
  | .arr l => l.length
  | .obj l => 2 * l.length
  | .key l _ => 2 * l.length + 1

/-- The level of the container one is in; of a container around it, whose next item has begun. -/
def innerL (P : Plat) (f : Frame) : Level := ⟨count f % P.szMod, isObj f⟩
def outerL (P : Plat) (f : Frame) : Level := ⟨(count f + 1) % P.szMod, isObj f⟩

def Sofar.nest : Sofar → Nat
  | .inside _ fs => fs.length + 1
  | _ => 0

def Sofar.topL (P : Plat) : Sofar → Level
  | .start => ⟨0, false⟩
  | .inside f _ => innerL P f
  | .done _ => ⟨1 % P.szMod, false⟩

def Sofar.belowL (P : Plat) : Sofar → List Level
  | .inside _ fs => ⟨1 % P.szMod, false⟩ :: fs.reverse.map (outerL P)
  | _ => []

/-- The emitter is where the calls have got. -/
structure Follows (P : Plat) (base : List Emit) (w : Val) (a mx : Nat) (j : Jems) (s : Sofar) :
    Prop where
  wf : WF P j
  maxLevel : j.maxLevel = mx
  writer : j.writer = w
  arg : j.arg = a
  out : j.out = base ++ written w a s.text
  curr : j.curr = Sofar.nest s
  below : j.levels.take j.curr = Sofar.belowL P s
  top : j.levels[j.curr]? = some (Sofar.topL P s)

theorem writes_item {P : Plat} {m : Mem} {x : Doc} {i : Item} (h : Writes P m x [.item i]) :
    ItemText P m i (render x) := by
  generalize hc : [Call.item i] = cs at h
  cases h with
  | arr _ => simp at hc
  | obj _ => simp at hc
  | null => cases hc; rw [render]; exact .null
  | true => cases hc; rw [render]; exact .true
  | false => cases hc; rw [render]; exact .false
  | bool b =>
    cases hc
    have := ItemText.bool (P := P) (m := m) b
    cases b <;> (rw [render]; simpa using this)
  | int v h1 h2 => cases hc; rw [render]; exact .int h1 h2
  | number h => cases hc; exact number_text h
  | string h => cases hc; rw [render]; exact .string h
  | bytes h => cases hc; rw [render]; exact .bytes h
  | literal h => cases hc; exact .literal h

theorem Follows.adv {P : Plat} {base : List Emit} {w : Val} {a mx : Nat} {j j' : Jems}
    {s s' : Sofar} {t : List UInt8} (h : Follows P base w a mx j s) (v : Adv P 1 t j j')
    (hn : Sofar.nest s' = Sofar.nest s) (hb : Sofar.belowL P s' = Sofar.belowL P s)
    (ht : Sofar.topL P s' =
      ⟨((Sofar.topL P s).itemCount + 1) % P.szMod, (Sofar.topL P s).isObject⟩)
    (hx : s'.text = s.text ++ t) : Follows P base w a mx j' s' where
  wf := v.wf h.wf
  maxLevel := v.maxLevel.trans h.maxLevel
  writer := v.writer.trans h.writer
  arg := v.arg.trans h.arg
  out := by rw [v.out, h.out, hx, h.writer, h.arg]; simp [written]
  curr := by rw [v.curr, h.curr, hn]
  below := by rw [v.curr, v.below, h.below, hb]
  top := by rw [v.curr, v.here _ h.top, ht]

theorem put_follows {P : Plat} {m : Mem} {base : List Emit} {w : Val} {a mx : Nat} {j : Jems}
    {s s' : Sofar} {i : Item} {x : Doc} (h : Follows P base w a mx j s) (hv : Sofar.Valid s)
    (hi : ItemText P m i (render x)) (hp : put x s = some s') (hf : Fits P.szMod s'.doc) :
    ∃ j', item P m j i = .ok j' ∧ Follows P base w a mx j' s' := by
  obtain ⟨j', e, v⟩ := item_adv h.wf h.top hi
  refine ⟨j', e, ?_⟩
  cases s with
  | start =>
    cases hp
    refine h.adv v rfl rfl rfl ?_
    simp [Sofar.text, Sofar.topL, sep]
  | done y => cases hp
  | inside f fs =>
    cases f with
    | arr l =>
      cases hp
      have hb := fold_fits fs hv hf
      simp only [fillTop, Fits, List.length_append, List.length_cons, List.length_nil] at hb
      refine h.adv v rfl rfl ?_ ?_
      · simp [Sofar.topL, innerL, count, isObj]
      · rw [show Sofar.topL P (.inside (.arr l) fs) = ⟨l.length % P.szMod, false⟩ from rfl,
          Nat.mod_eq_of_lt (by omega), sep_arr]
        simp [Sofar.text, frameText, renderItems_snoc]
    | obj l =>
      cases x <;> simp only [put] at hp <;> cases hp
      rename_i k
      have hb := fold_fits fs hv hf
      simp only [fillTop, Fits, List.length_append, List.length_cons, List.length_nil] at hb
      refine h.adv v rfl rfl ?_ ?_
      · simp [Sofar.topL, innerL, count, isObj]
      · rw [show Sofar.topL P (.inside (.obj l) fs) = ⟨2 * l.length % P.szMod, true⟩ from rfl,
          Nat.mod_eq_of_lt (by omega), sep_obj_even (by omega)]
        simp [Sofar.text, frameText, render]
    | key l k =>
      cases hp
      have hb := fold_fits fs hv hf
      simp only [fillTop, Fits, List.length_append, List.length_cons, List.length_nil] at hb
      refine h.adv v rfl rfl ?_ ?_
      · simp [Sofar.topL, innerL, count, isObj, Nat.mul_add]
      · rw [show Sofar.topL P (.inside (.key l k) fs) = ⟨(2 * l.length + 1) % P.szMod, true⟩ from rfl,
          Nat.mod_eq_of_lt (by omega), sep_obj_odd (by omega)]
        simp [Sofar.text, frameText, renderMembers_snoc]

theorem Follows.opened {P : Plat} {base : List Emit} {w : Val} {a mx : Nat} {j j' : Jems}
    {s s' : Sofar} {t : List UInt8} {b : Bool} (h : Follows P base w a mx j s)
    (v : Opened P b t j j') (hd : j.curr + 1 < j.maxLevel)
    (hn : Sofar.nest s' = Sofar.nest s + 1)
    (hb : Sofar.belowL P s' = Sofar.belowL P s ++
      [⟨((Sofar.topL P s).itemCount + 1) % P.szMod, (Sofar.topL P s).isObject⟩])
    (ht : Sofar.topL P s' = ⟨0, b⟩)
    (hx : s'.text = s.text ++ t) : Follows P base w a mx j' s' where
  wf := v.wf h.wf hd
  maxLevel := v.maxLevel.trans h.maxLevel
  writer := v.writer.trans h.writer
  arg := v.arg.trans h.arg
  out := by rw [v.out, h.out, hx, h.writer, h.arg]; simp [written]
  curr := by rw [v.curr, h.curr, hn]
  below := by rw [v.curr, take_succ' (v.here _ h.top), v.below, h.below, hb]
  top := by rw [v.new, ht]

/-- An empty container has just been opened. -/
def IsNew (f : Frame) (ch : UInt8) : Prop := (f = .arr [] ∧ ch = 91) ∨ (f = .obj [] ∧ ch = 123)

theorem enter_follows {P : Plat} {base : List Emit} {w : Val} {a mx : Nat} {j : Jems}
    {s s' : Sofar} {f : Frame} {ch : UInt8} (h : Follows P base w a mx j s) (hv : Sofar.Valid s)
    (hnew : IsNew f ch) (hp : enter f s = some s') (hf : Fits P.szMod s'.doc)
    (hd : depth s'.doc < mx) :
    ∃ j', (do let j ← commify P j; let j ← emitChar j ch; pushLevel P j (isObj f)) = .ok j' ∧
      Follows P base w a mx j' s' := by
  have htop : innerL P f = ⟨0, isObj f⟩ := by
    rcases hnew with ⟨rfl, _⟩ | ⟨rfl, _⟩ <;> simp [innerL, count, isObj]
  have htext : frameText f = [ch] := by
    rcases hnew with ⟨rfl, rfl⟩ | ⟨rfl, rfl⟩ <;> simp [frameText, renderItems, renderMembers]
  have hdep : 1 ≤ depth (fillTop f) := by
    rcases hnew with ⟨rfl, rfl⟩ | ⟨rfl, rfl⟩ <;> simp [fillTop, depth]
  have hv' := enter_valid hp hv
  cases s with
  | start =>
    cases hp
    have hd' : j.curr + 1 < j.maxLevel := by
      rw [h.curr, h.maxLevel]
      have := fold_depth [] (x := fillTop f) (by simp)
      simp only [Sofar.doc, List.foldl_nil] at hd
      simp only [Sofar.nest]; omega
    obtain ⟨j', e, v⟩ := open_push h.wf hd' h.top (isObj f) ch
    refine ⟨j', e, h.opened v hd' rfl (by simp [Sofar.belowL, Sofar.topL]) htop ?_⟩
    simp [Sofar.text, Sofar.topL, sep, htext]
  | done y => cases hp
  | inside g fs =>
    have hs : (∀ l, g ≠ .obj l) ∧ s' = .inside f (g :: fs) := by
      cases g <;> cases hp <;> exact ⟨(fun l h => by cases h), rfl⟩
    obtain ⟨hg, rfl⟩ := hs
    have hd' : j.curr + 1 < j.maxLevel := by
      rw [h.curr, h.maxLevel]
      have := fold_depth (g :: fs) (x := fillTop f) hv'
      simp only [Sofar.doc, List.length_cons] at hd this
      simp only [Sofar.nest]; omega
    have hb := fold_fits fs (x := fill (fillTop f) g) hv hf
    obtain ⟨j', e, v⟩ := open_push h.wf hd' h.top (isObj f) ch
    refine ⟨j', e, h.opened v hd' rfl ?_ htop ?_⟩
    · simp [Sofar.belowL, Sofar.topL, innerL, outerL]
    · have hsep : sep (Sofar.topL P (.inside g fs)) = frameSep g := by
        cases g with
        | arr l =>
          simp only [fill, Fits, List.length_append, List.length_cons, List.length_nil] at hb
          rw [show Sofar.topL P (.inside (.arr l) fs) = ⟨l.length % P.szMod, false⟩ from rfl,
            Nat.mod_eq_of_lt (by omega), sep_arr]
          simp [frameSep]
        | obj l => exact absurd rfl (hg l)
        | key l k =>
          simp only [fill, Fits, List.length_append, List.length_cons, List.length_nil] at hb
          rw [show Sofar.topL P (.inside (.key l k) fs) = ⟨(2 * l.length + 1) % P.szMod, true⟩ from rfl,
            Nat.mod_eq_of_lt (by omega), sep_obj_odd (by omega)]
          rfl
      rw [hsep]
      simp [Sofar.text, htext]

theorem close_follows {P : Plat} {base : List Emit} {w : Val} {a mx : Nat} {j : Jems}
    {f : Frame} {fs : List Frame} {s' : Sofar} {x : Doc} (h : Follows P base w a mx j (.inside f fs))
    (hx : render x = frameText f ++ [closer f]) (hns : ∀ k, x ≠ .str k)
    (hp : put x (.of fs) = some s') :
    ∃ j', (do let j ← emitChar j (closer f); .ok (popLevel P j) : C Jems) = .ok j' ∧
      Follows P base w a mx j' s' := by
  have hc := h.curr
  simp only [Sofar.nest] at hc
  have hm := h.wf.max
  have hcm := h.wf.curr
  rw [emitChar_ok h.wf.writer]
  simp only [C.ok_bind, popLevel]
  rw [show (say j [closer f]).curr = j.curr from rfl, if_pos (by omega),
    Plat.szSub_of_le (by omega) (by omega), hc, Nat.add_sub_cancel]
  refine ⟨_, rfl, ?_⟩
  have hb := h.below
  rw [hc] at hb
  simp only [Sofar.belowL] at hb
  have hout : ∀ t, t = (Sofar.inside f fs).text ++ [closer f] →
      (say j [closer f]).out = base ++ written w a t := by
    rintro t rfl
    simp [say, h.out, h.writer, h.arg, written]
  have hlen : fs.length < j.levels.length := by have := h.wf.len; omega
  cases fs with
  | nil =>
    cases hp
    refine ⟨⟨h.wf.writer, by simp only [say, List.length_nil]; omega, h.wf.len, h.wf.max⟩, h.maxLevel, h.writer,
      h.arg, hout _ ?_, rfl, by simp [Sofar.belowL, say], ?_⟩
    · simp [Sofar.text, hx]
    · simp only [say, List.length_nil, Sofar.topL]
      have := congrArg List.head? hb
      simp only [List.length_nil, List.head?_cons] at this
      cases hl : j.levels with
      | nil => rw [hl] at hlen; simp at hlen
      | cons y ys => rw [hl] at this; simpa using this
  | cons g gs =>
    simp only [List.length_cons, List.reverse_cons, List.map_append, List.map_cons, List.map_nil] at hb
    have hl1 : gs.length + 1 < j.levels.length := by simpa using hlen
    rw [List.take_succ_eq_append_getElem hl1, ← List.cons_append] at hb
    obtain ⟨hb1, hb2⟩ := List.append_inj' hb rfl
    have htop : j.levels[gs.length + 1]? = some (outerL P g) := by
      rw [List.getElem?_eq_getElem hl1, (List.cons.inj hb2).1]
    cases g with
    | arr l =>
      cases hp
      refine ⟨⟨h.wf.writer, by simp only [say, List.length_cons] at *; omega, h.wf.len, h.wf.max⟩, h.maxLevel,
        h.writer, h.arg, hout _ ?_, rfl, ?_, ?_⟩
      · simp [Sofar.text, frameText, frameSep, renderItems_snoc, hx]
      · simpa [say, Sofar.belowL] using hb1
      · simpa [say, Sofar.topL, innerL, outerL, count, isObj] using htop
    | obj l => cases x <;> first | exact absurd rfl (hns _) | cases hp
    | key l k =>
      cases hp
      refine ⟨⟨h.wf.writer, by simp only [say, List.length_cons] at *; omega, h.wf.len, h.wf.max⟩, h.maxLevel,
        h.writer, h.arg, hout _ ?_, rfl, ?_, ?_⟩
      · simp [Sofar.text, frameText, frameSep, renderMembers_snoc, hx]
      · simpa [say, Sofar.belowL] using hb1
      · simpa [say, Sofar.topL, innerL, outerL, count, isObj, Nat.mul_add] using htop

theorem step_follows {P : Plat} {m : Mem} {base : List Emit} {w : Val} {a mx : Nat}
    {s s' : Sofar} {c : Call} (hs : Step P m s c s') (hv : Sofar.Valid s) :
    ∀ {j : Jems}, Follows P base w a mx j s → Fits P.szMod s'.doc → depth s'.doc < mx →
    ∃ j', call P m j c = .ok j' ∧ Follows P base w a mx j' s' := by
  induction hs with
  | item hw hp => intro j h hf hd; exact put_follows h hv (writes_item hw) hp hf
  | arrayOpen hp =>
    intro j h hf hd
    obtain ⟨j', e, h'⟩ := enter_follows (f := .arr []) (ch := 91) h hv (.inl ⟨rfl, rfl⟩) hp hf hd
    refine ⟨j', ?_, h'⟩
    simp only [call, item, arrayOpen]
    exact e
  | objectOpen hp =>
    intro j h hf hd
    obtain ⟨j', e, h'⟩ := enter_follows (f := .obj []) (ch := 123) h hv (.inr ⟨rfl, rfl⟩) hp hf hd
    refine ⟨j', ?_, h'⟩
    simp only [call, item, objectOpen]
    exact e
  | arrayClose hp =>
    intro j h hf hd
    obtain ⟨j', e, h'⟩ := close_follows h (by simp [render, frameText, closer])
      (fun k h => by cases h) hp
    refine ⟨j', ?_, h'⟩
    simp only [call, arrayClose]
    exact e
  | objectClose hp =>
    intro j h hf hd
    obtain ⟨j', e, h'⟩ := close_follows h (by simp [render, frameText, closer])
      (fun k h => by cases h) hp
    refine ⟨j', ?_, h'⟩
    simp only [call, objectClose]
    exact e
  | @key p k i l fs s' hk hs ih =>
    intro j h hf hd
    have hcut := step_cut hs (fun h => by cases h)
    obtain ⟨j1, e1, h1⟩ := put_follows (m := m) (i := .string p) (x := .str k)
      (s' := .inside (.key l k) fs) h hv (by rw [render]; exact .string hk) rfl (cut_fits hcut hf)
    obtain ⟨j2, e2, h2⟩ := ih hv h1 hf hd
    refine ⟨j2, ?_, h2⟩
    simp only [call, keyItem_eq]
    simp only [item] at e1
    rw [e1]
    exact e2

theorem steps_follow {P : Plat} {m : Mem} {base : List Emit} {w : Val} {a mx : Nat}
    {s s' : Sofar} {cs : List Call} (hs : Steps P m s cs s') : ∀ {j : Jems}, Sofar.Valid s →
    Follows P base w a mx j s → Fits P.szMod s'.doc → depth s'.doc < mx →
    ∃ j', calls P m j cs = .ok j' ∧ Follows P base w a mx j' s' ∧ Sofar.Valid s' := by
  induction hs with
  | nil => intro j hv h _ _; exact ⟨j, rfl, h, hv⟩
  | cons hc hs ih =>
    intro j hv h hf hd
    have hcut := steps_cut hs (step_ne_start hc)
    obtain ⟨j1, e1, h1⟩ := step_follows hc hv h (cut_fits hcut hf)
      (Nat.lt_of_le_of_lt (cut_depth hcut) hd)
    obtain ⟨j2, e2, h2, h3⟩ := ih (step_valid hc hv) h1 hf hd
    refine ⟨j2, ?_, h2, h3⟩
    simp only [calls, e1, C.ok_bind]
    exact e2

/-! ## Completing -/

theorem close_all {P : Plat} {m : Mem} : ∀ (fs : List Frame) (f : Frame),
    (∀ g ∈ fs, ∀ l, g ≠ .obj l) → (∀ l k, f ≠ .key l k) →
    Steps P m (.inside f fs) (closeCall f :: fs.map closeCall) (.done (fs.foldl fill (fillTop f))) := by
  intro fs
  induction fs with
  | nil =>
    intro f _ hf
    cases f with
    | arr l => exact .one (.arrayClose rfl)
    | obj l => exact .one (.objectClose rfl)
    | key l k => exact absurd rfl (hf l k)
  | cons g gs ih =>
    intro f hv hf
    have hv' : ∀ g ∈ gs, ∀ l, g ≠ .obj l := fun g hg => hv g (by simp [hg])
    have hstep : ∀ s', put (fillTop f) (.of (g :: gs)) = some s' →
        Step P m (.inside f (g :: gs)) (closeCall f) s' := by
      intro s' h
      cases f with
      | arr l => exact .arrayClose h
      | obj l => exact .objectClose h
      | key l k => exact absurd rfl (hf l k)
    cases g with
    | arr l => exact .cons (hstep _ rfl) (ih (.arr (l ++ [fillTop f])) hv' (fun l k h => by cases h))
    | obj l => exact absurd rfl (hv _ (by simp) l)
    | key l k =>
      exact .cons (hstep _ rfl) (ih (.obj (l ++ [(k, fillTop f)])) hv' (fun l k h => by cases h))

theorem finish_steps {P : Plat} {m : Mem} {s : Sofar} (hv : Sofar.Valid s) (h0 : s ≠ .start) :
    Steps P m s s.finish (.done s.doc) := by
  cases s with
  | start => exact absurd rfl h0
  | done x => exact .nil
  | inside f fs =>
    cases f with
    | arr l => exact close_all fs (.arr l) hv (fun l k h => by cases h)
    | obj l => exact close_all fs (.obj l) hv (fun l k h => by cases h)
    | key l k =>
      exact .cons (.item .null rfl) (close_all fs (.obj (l ++ [(k, .null)])) hv (fun l k h => by cases h))

theorem init_follows {P : Plat} (junk : Jems) {levels : List Level} {maxLevel : Nat} {writer : Val}
    (arg : Nat) (hi : InitOk P levels maxLevel writer) :
    ∃ j0, init junk levels maxLevel writer arg = .ok j0 ∧
      Follows P junk.out writer arg maxLevel j0 .start := by
  obtain ⟨j0, e0, w0, c0, l0, o0, m0, wr0, a0⟩ := init_ok (P := P) junk (levels := levels) arg
    hi.writer hi.pos hi.len hi.size
  refine ⟨j0, e0, w0, m0, wr0, a0, ?_, c0, ?_, ?_⟩
  · simp [o0, Sofar.text, written]
  · rw [c0]; rfl
  · rw [c0]; exact l0

/-- C114.  While a document `x` is being emitted, after any of the calls (`cs`, the others being
`more`): the calls so far determine a place `s` in the document; the text passed to the writer so
far is the text up to there; followed by the closing text `s.rest` (`:null` if a value is missing,
and a bracket for each open container) it is well-formed JSON, and what a JSON reader reads is `x`
cut off at this place. -/
theorem C114_anywhere {P : Plat} {m : Mem} (junk : Jems) {levels : List Level} {maxLevel : Nat}
    {writer : Val} (arg : Nat) (hi : InitOk P levels maxLevel writer) {x : Doc}
    {cs more : List Call} (h : Writes P m x (cs ++ more)) (h0 : cs ≠ [])
    (hd : depth x < maxLevel) (hf : Fits P.szMod x) :
    ∃ j0 j s, init junk levels maxLevel writer arg = .ok j0 ∧ calls P m j0 cs = .ok j ∧
      Steps P m .start cs s ∧ j.out = junk.out ++ written writer arg s.text ∧
      Spec.read (s.text ++ s.rest) = some s.doc ∧ Cut s.doc x := by
  obtain ⟨j0, e0, f0⟩ := init_follows (P := P) junk (levels := levels) arg hi
  obtain ⟨s, h1, h2⟩ := Steps.split (writes_steps h (s := .start) rfl)
  have hs0 : s ≠ .start := by
    cases h1 with
    | nil => exact absurd rfl h0
    | cons hc h1 =>
      intro hs
      subst hs
      have : ∀ {a b : Sofar} {cs : List Call}, Steps P m a cs b → a ≠ .start → b ≠ .start := by
        intro a b cs h
        induction h with
        | nil => exact fun h => h
        | cons hc _ ih => exact fun _ => ih (step_ne_start hc)
      exact this h1 (step_ne_start hc) rfl
  have hcut : Cut s.doc x := steps_cut h2 hs0
  obtain ⟨j, e, fj, hv⟩ := steps_follow h1 (by trivial) f0 (cut_fits hcut hf)
    (Nat.lt_of_le_of_lt (cut_depth hcut) hd)
  refine ⟨j0, j, s, e0, e, h1, fj.out, ?_, hcut⟩
  rw [text_rest hv hs0]
  exact read_render _

/-- C114.  The program can complete the document itself: the calls `s.finish` (`mu_jems_null` if a
value is missing, and a closing call for each open container) write exactly `s.rest`. -/
theorem C114_finish {P : Plat} {m : Mem} (junk : Jems) {levels : List Level} {maxLevel : Nat}
    {writer : Val} (arg : Nat) (hi : InitOk P levels maxLevel writer) {x : Doc}
    {cs more : List Call} (h : Writes P m x (cs ++ more)) (h0 : cs ≠ [])
    (hd : depth x < maxLevel) (hf : Fits P.szMod x) :
    ∃ j0 j j' s, init junk levels maxLevel writer arg = .ok j0 ∧ calls P m j0 cs = .ok j ∧
      Steps P m .start cs s ∧ calls P m j s.finish = .ok j' ∧
      j'.out = j.out ++ written writer arg s.rest ∧
      j'.out = junk.out ++ written writer arg (render s.doc) := by
  obtain ⟨j0, e0, f0⟩ := init_follows (P := P) junk (levels := levels) arg hi
  obtain ⟨s, h1, h2⟩ := Steps.split (writes_steps h (s := .start) rfl)
  have hs0 : s ≠ .start := by
    cases h1 with
    | nil => exact absurd rfl h0
    | cons hc h1 =>
      intro hs
      subst hs
      have : ∀ {a b : Sofar} {cs : List Call}, Steps P m a cs b → a ≠ .start → b ≠ .start := by
        intro a b cs h
        induction h with
        | nil => exact fun h => h
        | cons hc _ ih => exact fun _ => ih (step_ne_start hc)
      exact this h1 (step_ne_start hc) rfl
  have hcut : Cut s.doc x := steps_cut h2 hs0
  have hf' := cut_fits hcut hf
  have hd' := Nat.lt_of_le_of_lt (cut_depth hcut) hd
  obtain ⟨j, e, fj, hv⟩ := steps_follow h1 (by trivial) f0 hf' hd'
  obtain ⟨j', e', fj', _⟩ := steps_follow (finish_steps hv hs0) hv fj hf' hd'
  have ho : j'.out = junk.out ++ written writer arg (render s.doc) := fj'.out
  refine ⟨j0, j, j', s, e0, e, h1, e', ?_, ho⟩
  rw [ho, fj.out, ← text_rest hv hs0]
  simp [written]

/-- A document cut off after the key `"k"` and inside of an array. -/
example : Writes Plat.ip16 exMem exDoc (exCalls.take 3 ++ exCalls.drop 3) ∧
    (Sofar.inside (.arr [.int 1]) [.key [] [107]]).text ++
      (Sofar.inside (.arr [.int 1]) [.key [] [107]]).rest = ascii "{\"k\":[1" ++ ascii "]}" ∧
    (Sofar.inside (.key [([107], .null)] []) []).text ++
      (Sofar.inside (.key [([107], .null)] []) []).rest =
        ascii "{\"k\":null,\"\"" ++ ascii ":null}" := by
  refine ⟨exWrites, by decide +kernel, by decide +kernel⟩

end Mu.Jems
