/-
Proofs for C81.
-/
import Verif.Spec.Build
import Verif.Props.TreeDump
import Verif.Props.Attr
import Verif.Props.Escape

namespace Axl.Work
open Spec.Build Spec.Tree Spec.Tree.Forest Spec.Attr Str
open Spec.RoundTrip (Before IsName NameChar Quotable FineAttr FineLeaf Fine FineItems Allowed after NoContent SlashFirst Bare padded)

/-- The text stored for a text given. -/
def sc : Child → Child
  | .text .content s => .text .content (encode s)
  | .text .cdata s => .text .cdata (encode s)
  | c => c

/-- The nodes with the texts stored. -/
def sf (f : Forest) : Forest := { f with kids := fun n => (f.kids n).map sc }

@[simp] theorem sc_node (n : Nat) : sc (.node n) = .node n := rfl

theorem sc_noText {v : Child} (h : noText v = true) : sc v = v := by
  cases v with
  | node n => rfl
  | text k s => cases k <;> simp_all [noText, sc]

theorem sc_eq_node {c : Child} {n : Nat} : sc c = .node n ↔ c = .node n := by
  cases c with
  | node m => simp
  | text k s => cases k <;> simp [sc]

theorem isContent_sc (c : Child) : Heap.isContent (sc c) = Heap.isContent c := by
  cases c with
  | node m => rfl
  | text k s => cases k <;> rfl

@[simp] theorem nodesOf_sc : ∀ l : List Child, nodesOf (l.map sc) = nodesOf l
  | [] => rfl
  | .node n :: l => by simp [nodesOf, nodesOf_sc l]
  | .text k s :: l => by cases k <;> simp [nodesOf, sc, nodesOf_sc l]

theorem subtree_sf (f : Forest) : ∀ (d n : Nat), (sf f).subtree d n = f.subtree d n
  | 0, _ => rfl
  | d + 1, n => by
    simp only [subtree, sf, nodesOf_sc]
    congr 1
    exact congrArg (fun g => List.flatMap g _) (funext fun m => subtree_sf f d m)

theorem below_sf (f : Forest) (n m : Nat) : (sf f).below n m = f.below n m := by
  unfold below
  rw [subtree_sf]; rfl

theorem attached_sf (f : Forest) (n : Nat) : (sf f).attached n = f.attached n := by
  unfold attached
  simp [sf]

theorem kill_sf (f : Forest) (n : Nat) : (sf f).kill n = sf (f.kill n) := by
  simp only [kill, below_sf]
  rfl

theorem setKids_sf (f : Forest) (p : Nat) (l : List Child) : (sf f).setKids p (l.map sc) = sf (f.setKids p l) := by
  simp only [setKids, sf]
  congr 1
  funext q
  split <;> rfl

theorem killChild_sf (f : Forest) (o : Option Child) : (sf f).killChild (o.map sc) = sf (f.killChild o) := by
  rcases o with _ | c
  · rfl
  · cases c with
    | node n => exact kill_sf f n
    | text k s => cases k <;> rfl

theorem mayGo_sf (f : Forest) (p : Nat) (v : Child) : (sf f).mayGo p v = f.mayGo p v := by
  cases v with
  | text k s => rfl
  | node n => simp only [mayGo, attached_sf, below_sf]; rfl

theorem inner_sf (f : Forest) (p i : Nat) : (sf f).inner p i = f.inner p i := by
  unfold inner
  simp only [sf, List.getElem?_map, List.length_map]
  cases (f.kids p)[i]? with
  | none => rfl
  | some c =>
    cases c with
    | node n => rfl
    | text k s => cases k <;> rfl

theorem mapKids_sf (f : Forest) (g : List Child → List Child) (h : ∀ l, (g l).map sc = g (l.map sc)) :
    ({ sf f with kids := fun p => g ((sf f).kids p) } : Forest) = sf { f with kids := fun p => g (f.kids p) } := by
  simp only [sf]
  congr 1
  funext p
  exact (h _).symm

theorem filter_sc (p : Child → Bool) (h : ∀ c, p (sc c) = p c) (l : List Child) : (l.filter p).map sc = (l.map sc).filter p := by
  rw [List.filter_map]
  congr 1
  exact List.filter_congr fun c _ => by simp [h]

theorem map_eraseIdx : ∀ (l : List Child) (i : Nat), (l.map sc).eraseIdx i = (l.eraseIdx i).map sc
  | [], _ => rfl
  | _ :: _, 0 => rfl
  | c :: l, i + 1 => by simp [map_eraseIdx l i]

theorem fits_sf (f : Forest) {op : Spec.Tree.Op} (hp : plainOp op = true) : (sf f).fits op = f.fits op := by
  cases op with
  | create name => rfl
  | setChild p v => simp only [fits, mayGo_sf]; rfl
  | setChildRef p v => simp only [fits, mayGo_sf]; rfl
  | setAfter p i v => simp only [fits, mayGo_sf]; simp [sf]
  | removeNode n d => simp only [fits, attached_sf]; rfl
  | removeItem p i d => simp only [fits, inner_sf]; rfl
  | replaceItem p i v d => simp only [fits, inner_sf, mayGo_sf]; rfl
  | replaceNode n m d => simp only [fits, attached_sf, mayGo_sf]; simp [sf]
  | transfer p q => simp only [fits, below_sf]; rfl
  | transferAfter p q i => simp only [fits, below_sf]; simp [sf]
  | setIsEmpty p =>
    simp only [fits, sf, List.all_map, List.head?_map, List.getLast?_map]
    simp [Function.comp_def, isContent_sc, Option.all_map]
  | free n => simp only [fits, attached_sf]; rfl
  | copy n c => simp [plainOp] at hp

theorem step_sf (f : Forest) {op : Spec.Tree.Op} (hp : plainOp op = true) : (sf f).step op = sf (f.step op) := by
  cases op with
  | create name =>
    simp only [step, add, sf]
    congr 1
    funext m
    by_cases h : m = f.next <;> simp [h]
  | setChild p v =>
    simp only [step]
    rw [← setKids_sf]
    simp [sf, sc_noText (v := v) (by simpa [plainOp] using hp)]
  | setChildRef p v =>
    simp only [step]
    rw [← setKids_sf]
    simp [sf, sc_noText (v := v) (by simpa [plainOp] using hp)]
  | setAfter p i v =>
    simp only [step]
    rw [← setKids_sf]
    simp [sf, sc_noText (v := v) (by simpa [plainOp] using hp)]
  | removeNode n d =>
    have hb : ∀ c, (sc c != Child.node n) = (c != Child.node n) := by
      intro c
      rw [Bool.eq_iff_iff]
      simp [sc_eq_node]
    have := mapKids_sf f (fun l => l.filter (· != .node n)) (fun l => filter_sc _ hb l)
    simp only [step]
    rw [this]
    split
    · exact kill_sf _ n
    · rfl
  | removeItem p i d =>
    have h1 : ((sf f).kids p).eraseIdx i = ((f.kids p).eraseIdx i).map sc := map_eraseIdx _ _
    have h2 : ((sf f).kids p)[i]? = ((f.kids p)[i]?).map sc := by simp [sf]
    simp only [step]
    rw [h1, h2, setKids_sf, killChild_sf]
    split <;> rfl
  | replaceItem p i v d =>
    have hv := sc_noText (v := v) (by simpa [plainOp] using hp)
    have h1 : ((sf f).kids p).set i v = ((f.kids p).set i v).map sc := by simp [sf, List.map_set, hv]
    have h2 : ((sf f).kids p)[i]? = ((f.kids p)[i]?).map sc := by simp [sf]
    simp only [step]
    rw [h1, h2, setKids_sf, killChild_sf]
    split <;> rfl
  | replaceNode n m d =>
    have := mapKids_sf f (fun l => l.map fun c => if c = .node n then .node m else c) (fun l => by
      rw [List.map_map, List.map_map]
      apply List.map_congr_left
      intro c _
      simp only [Function.comp_apply, sc_eq_node]
      split <;> simp)
    simp only [step]
    rw [this]
    split
    · exact kill_sf _ n
    · rfl
  | transfer p q =>
    simp only [step]
    rw [← setKids_sf, ← setKids_sf]
    simp [sf]
  | transferAfter p q i =>
    simp only [step]
    rw [← setKids_sf, ← setKids_sf]
    simp [sf]
  | setIsEmpty p =>
    simp only [step]
    rw [← setKids_sf, filter_sc _ (fun c => by rw [isContent_sc])]
    rfl
  | free n => exact kill_sf f n
  | copy n c => simp [plainOp] at hp

end Axl.Work
