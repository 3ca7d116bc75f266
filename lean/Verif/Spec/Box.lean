/-
Specification vocabulary: boxes of multi-indices and addresses given by strides.  Independent of
the model.
-/
namespace Verif

/-- `0 ≤ c_k < n_k` for every axis, and equal dimensions. -/
def InBox : List Int → List Int → Prop
  | [], [] => True
  | n :: nb, c :: cs => 0 ≤ c ∧ c < n ∧ InBox nb cs
  | _, _ => False

instance InBox.dec : ∀ nb c, Decidable (InBox nb c)
  | [], [] => .isTrue trivial
  | n :: nb, c :: cs =>
      have := InBox.dec nb cs
      inferInstanceAs (Decidable (0 ≤ c ∧ c < n ∧ InBox nb cs))
  | [], _ :: _ => .isFalse id
  | _ :: _, [] => .isFalse id

/-- Sum of products of strides and coordinates. -/
def dot : List Int → List Int → Int
  | s :: ss, c :: cs => s * c + dot ss cs
  | _, _ => 0

/-- All extents are at least one. -/
def Pos (nb : List Int) : Prop := ∀ n ∈ nb, 0 < n

instance (nb : List Int) : Decidable (Pos nb) := inferInstanceAs (Decidable (∀ n ∈ nb, 0 < n))

/-- `l_k ≤ c_k < l_k + n_k` for every axis, and equal dimensions: the pixels of a grid with
extents `nb` and origin `loc`. -/
def InBoxAt : List Int → List Int → List Int → Prop
  | [], [], [] => True
  | n :: nb, l :: loc, c :: cs => l ≤ c ∧ c < l + n ∧ InBoxAt nb loc cs
  | _, _, _ => False

instance InBoxAt.dec : ∀ nb loc c, Decidable (InBoxAt nb loc c)
  | [], [], [] => .isTrue trivial
  | n :: nb, l :: loc, c :: cs =>
      have := InBoxAt.dec nb loc cs
      inferInstanceAs (Decidable (l ≤ c ∧ c < l + n ∧ InBoxAt nb loc cs))
  | [], [], _ :: _ => .isFalse id
  | [], _ :: _, [] => .isFalse id
  | [], _ :: _, _ :: _ => .isFalse id
  | _ :: _, [], [] => .isFalse id
  | _ :: _, [], _ :: _ => .isFalse id
  | _ :: _, _ :: _, [] => .isFalse id

/-- Number of pixels of a grid. -/
def nbPixels : List Int → Int
  | [] => 1
  | n :: nb => n * nbPixels nb

/-- Column-major number of a pixel: the first coordinate runs fastest. -/
def colMajorNumber : List Int → List Int → List Int → Int
  | n :: nb, l :: loc, c :: cs => (c - l) + n * colMajorNumber nb loc cs
  | _, _, _ => 0

/-- Row-major number of a pixel: the last coordinate runs fastest. -/
def rowMajorNumber : List Int → List Int → List Int → Int
  | _ :: nb, l :: loc, c :: cs => (c - l) * nbPixels nb + rowMajorNumber nb loc cs
  | _, _, _ => 0

/-- Largest address minus the smallest: `∑ (n_k - 1) s_k`. -/
def maxIdx : List Int → List Int → Int
  | n :: nb, s :: ss => (n - 1) * s + maxIdx nb ss
  | _, _ => 0

/-- Slowest axis first: each stride exceeds every address reachable with the faster axes. -/
def SD : List Int → List Int → Prop
  | [], [] => True
  | n :: nb, s :: ss => 0 < n ∧ maxIdx nb ss < s ∧ SD nb ss
  | _, _ => False

/-- Dense: each stride is one more than the largest address of the faster axes. -/
def Dense : List Int → List Int → Prop
  | [], [] => True
  | n :: nb, s :: ss => 0 < n ∧ s = maxIdx nb ss + 1 ∧ Dense nb ss
  | _, _ => False

/-- The entries of `l` in the order of `ax`. -/
def pick (ax : List Nat) (l : List Int) : List Int := ax.map (fun a => l[a]?.getD 0)

/-- Pixel strides of a grid that leave no two pixels at one address because, in some order of the
axes from slow to fast, each stride exceeds every address reachable with the faster axes.  (Includes
all padded and transposed array layouts.) -/
def NestedStrides (nb strides : List Int) : Prop :=
  strides.length = nb.length ∧
    ∃ order : List Nat, order.Perm (List.range nb.length) ∧
      SD (pick order nb) (pick order strides)

/-- Strides of a dense array stored in some order of the axes (from slow to fast). -/
def DenseStrides (nb strides : List Int) : Prop :=
  strides.length = nb.length ∧
    ∃ order : List Nat, order.Perm (List.range nb.length) ∧
      Dense (pick order nb) (pick order strides)

end Verif
