import Verif.Source.LikeSyntax

/-!
# The text of `enum_set`

The `impl` items of `enum_set/src/lib.rs`, copied by `tools/mksource.py`: all of them.
-/

namespace EnumVecModel
namespace Source
namespace SetText

open Like

set_option maxRecDepth 100000

-- enum_set/src/lib.rs, lines 31-164
rust_item s_set "impl<E: EnumLike> EnumSet<E> {
    /// Returns the inner `BitSet`.
    pub fn into_bit_set(self) -> BitSet {
        self.inner
    }

    /// Returns a reference to the inner `BitSet`.
    pub fn get_ref(&self) -> &BitSet {
        &self.inner
    }

    /// Constructs an `EnumSet` from a `BitSet`.
    pub fn from_bit_set(inner: BitSet) -> Self {
        Self {
            inner,
            _phantom: PhantomData,
        }
    }

    /// Creates a new `EnumSet`.
    pub fn new() -> Self {
        Self {
            //inner: BitSet::with_capacity(E::NUM_VARIANTS),
            inner: BitSet::new(),
            _phantom: PhantomData,
        }
    }

    /// Attemps to minimalize the memory usage of the inner `BitSet`.
    pub fn shrink_to_fit(&mut self) {
        self.inner.shrink_to_fit()
    }

    /// Iterator over each element in the set.
    pub fn iter(&self) -> WrapIter<E, bit_set::Iter<'_, u32>> {
        WrapIter::<E, _>::new(self.inner.iter())
    }

    /*
    // Alternative not using WrapIter
    /// Iterator over each element in the set
    pub fn iter<'a>(&'a self) -> impl Iterator<Item=E> + 'a {
        self.inner.iter().map(|x| E::from_discr(x))
    }
    */

    /// Iterator over each element in `set || other`.
    pub fn union<'a>(&'a self, other: &'a Self) -> Union<'a, E> {
        WrapIter::<E, _>::new(self.inner.union(&other.inner))
    }

    /// Iterator over each element in `set && other`.
    pub fn intersection<'a>(&'a self, other: &'a Self) -> Intersection<'a, E> {
        WrapIter::<E, _>::new(self.inner.intersection(&other.inner))
    }

    /// Iterator over each element in `set - other`.
    pub fn difference<'a>(&'a self, other: &'a Self) -> Difference<'a, E> {
        WrapIter::<E, _>::new(self.inner.difference(&other.inner))
    }

    /// Iterator over each element in `set ^ other`.
    pub fn symmetric_difference<'a>(&'a self, other: &'a Self) -> SymmetricDifference<'a, E> {
        WrapIter::<E, _>::new(self.inner.symmetric_difference(&other.inner))
    }

    /// Computes the union with the other set, in-place.
    pub fn union_with(&mut self, other: &Self) {
        self.inner.union_with(&other.inner)
    }

    /// Computes the intersection with the other set, in-place.
    pub fn intersect_with(&mut self, other: &Self) {
        self.inner.intersect_with(&other.inner)
    }

    /// Computes the difference with the other set, in-place.
    pub fn difference_with(&mut self, other: &Self) {
        self.inner.difference_with(&other.inner)
    }

    /// Computes the symmetric difference with the other set, in-place.
    pub fn symmetric_difference_with(&mut self, other: &Self) {
        self.inner.symmetric_difference_with(&other.inner)
    }

    /// Returns the number of elements in the set.
    pub fn len(&self) -> usize {
        self.inner.len()
    }

    /// Returns `true` if there are no elements in the set.
    pub fn is_empty(&self) -> bool {
        self.inner.is_empty()
    }

    /// Clears all elements in the set.
    pub fn clear(&mut self) {
        self.inner.clear()
    }

    /// Returns `true` if the set contains this value.
    pub fn contains(&self, value: E) -> bool {
        let d = value.to_discr();
        self.inner.contains(d)
    }

    /// Returns `true` if the set has no elements in common with `other`.
    pub fn is_disjoint(&self, other: &Self) -> bool {
        self.inner.is_disjoint(&other.inner)
    }

    /// Returns `true` if the set has no elements in common with `other`.
    pub fn is_subset(&self, other: &Self) -> bool {
        self.inner.is_subset(&other.inner)
    }

    /// Returns `true` if the set has no elements in common with `other`.
    pub fn is_superset(&self, other: &Self) -> bool {
        self.inner.is_superset(&other.inner)
    }

    /// Returns `true` if the value was not already present in the set
    pub fn insert(&mut self, value: E) -> bool {
        let d = value.to_discr();
        self.inner.insert(d)
    }

    /// Returns `true` if the value was already present in the set
    pub fn remove(&mut self, value: E) -> bool {
        let d = value.to_discr();
        self.inner.remove(d)
    }
}"

-- enum_set/src/lib.rs, lines 166-170
rust_item s_default "impl<E: EnumLike> Default for EnumSet<E> {
    fn default() -> Self {
        Self::new()
    }
}"

-- enum_set/src/lib.rs, lines 172-178
rust_item s_from_iter "impl<E: EnumLike> FromIterator<E> for EnumSet<E> {
    fn from_iter<I: IntoIterator<Item = E>>(iter: I) -> Self {
        let mut ret = Self::default();
        ret.extend(iter);
        ret
    }
}"

-- enum_set/src/lib.rs, lines 180-186
rust_item s_extend "impl<E: EnumLike> Extend<E> for EnumSet<E> {
    fn extend<I: IntoIterator<Item = E>>(&mut self, iter: I) {
        for i in iter {
            self.insert(i);
        }
    }
}"

-- enum_set/src/lib.rs, lines 188-192
rust_item s_debug "impl<E: EnumLike + fmt::Debug> fmt::Debug for EnumSet<E> {
    fn fmt(&self, f: &mut fmt::Formatter) -> fmt::Result {
        f.debug_set().entries(self.iter()).finish()
    }
}"

-- enum_set/src/lib.rs, lines 215-219
rust_item s_wrap "impl<E: EnumLike, I: Iterator<Item=usize>> WrapIter<E, I> {
    fn new(inner: I) -> Self {
        Self { inner, _phantom: PhantomData }
    }
}"

-- enum_set/src/lib.rs, lines 221-229
rust_item s_iterator "impl<E: EnumLike, I: Iterator<Item=usize>> Iterator for WrapIter<E, I> {
    type Item = E;
    fn next(&mut self) -> Option<E> {
        self.inner.next().map(|x| E::from_discr(x))
    }
    fn size_hint(&self) -> (usize, Option<usize>) {
        self.inner.size_hint()
    }
}"

-- enum_set/src/lib.rs, lines 231-238
rust_item s_into_iter "impl<'a, E: EnumLike> IntoIterator for &'a EnumSet<E> {
    type Item = E;
    type IntoIter = WrapIter<E, bit_set::Iter<'a, u32>>;

    fn into_iter(self) -> Self::IntoIter {
        self.iter()
    }
}"

end SetText
end Source
end EnumVecModel
