import Verif.Source.Syntax

/-!
# The text

The methods of `EnumVec`, copied from `enum_vec/src/vec_u32/mod.rs` by `tools/mksource.py`. The texts are the same, letter by letter, in `vec_u8`, `vec_u16`, `vec_u64`,
`vec_u128` and `smallvec_u32`, but for `append` in `smallvec_u32`.
-/

namespace EnumVecModel
namespace Source

set_option maxRecDepth 100000

-- vec_u32/mod.rs, lines 597-602
rust_fn f_block_index "    fn block_index(i: usize) -> (usize, usize) {
        (
            i / Self::ELEMS_PER_BLOCK,
            (i % Self::ELEMS_PER_BLOCK) * Self::BITS_PER_ELEM,
        )
    }"

-- vec_u32/mod.rs, lines 604-606
rust_fn f_blocks_for_elements "    fn blocks_for_elements(n: usize) -> usize {
        n.saturating_add(Self::ELEMS_PER_BLOCK - 1) / Self::ELEMS_PER_BLOCK
    }"

-- vec_u32/mod.rs, lines 434-436
rust_fn f_len "    pub fn len(&self) -> usize {
        self.num_elements
    }"

-- vec_u32/mod.rs, lines 440-442
rust_fn f_is_empty "    pub fn is_empty(&self) -> bool {
        self.len() == 0
    }"

-- vec_u32/mod.rs, lines 437-439
rust_fn f_set_len "    pub unsafe fn set_len(&mut self, len: usize) {
        self.num_elements = len;
    }"

-- vec_u32/mod.rs, lines 538-544
rust_fn f_get_raw_unchecked "    pub unsafe fn get_raw_unchecked(&self, i: usize) -> usize {
        let (idx_w, idx_b) = Self::block_index(i);
        let block = self.storage.get_unchecked(idx_w);
        let discr = (block >> idx_b) & Self::ELEMENT_MASK;

        discr as usize
    }"

-- vec_u32/mod.rs, lines 558-569
rust_fn f_set_raw_unchecked "    pub unsafe fn set_raw_unchecked(&mut self, i: usize, discr: usize) {
        let (idx_w, idx_b) = Self::block_index(i);
        let block = self.storage.get_unchecked_mut(idx_w);
        *block &= !(Self::ELEMENT_MASK << idx_b);
        *block |= (discr as StorageBlock) << idx_b;

        // Alternative implementation, TODO: benchmark
        /*
        let discr_old = (*block >> idx_b) & Self::ELEMENT_MASK;
        *block ^= (discr_old ^ discr as StorageBlock) << idx_b; 
        */
    }"

-- vec_u32/mod.rs, lines 527-535
rust_fn f_get_raw "    fn get_raw(&self, i: usize) -> Option<usize> {
        if i >= self.len() {
            return None;
        }

        let discr = unsafe { self.get_raw_unchecked(i) };

        Some(discr)
    }"

-- vec_u32/mod.rs, lines 546-554
rust_fn f_set_raw "    fn set_raw(&mut self, i: usize, discr: usize) {
        if i >= self.len() {
            panic!(\"index out of bounds: {} >= {}\", i, self.len());
        }

        unsafe {
            self.set_raw_unchecked(i, discr);
        }
    }"

-- vec_u32/mod.rs, lines 108-111
rust_fn f_get "    pub fn get(&self, i: usize) -> Option<T> {
        // I wonder if T::from_discr will be optimized away when possible?
        self.get_raw(i).map(|x| T::from_discr(x))
    }"

-- vec_u32/mod.rs, lines 112-114
rust_fn f_set "    pub fn set(&mut self, i: usize, x: T) {
        self.set_raw(i, x.to_discr());
    }"

-- vec_u32/mod.rs, lines 572-577
rust_fn f_swap "    pub fn swap(&mut self, ia: usize, ib: usize) {
        let a = self.get_raw(ia).unwrap();
        let b = self.get_raw(ib).unwrap();
        self.set_raw(ia, b);
        self.set_raw(ib, a);
    }"

-- vec_u32/mod.rs, lines 589-592
rust_fn f_fix_storage "    fn fix_storage(&mut self) {
        let len = Self::blocks_for_elements(self.len());
        self.storage.truncate(len);
    }"

-- vec_u32/mod.rs, lines 579-586
rust_fn f_grow_if_needed "    fn grow_if_needed(&mut self) {
        // Grow if needed
        if (self.len() % Self::ELEMS_PER_BLOCK == 0)
            && (Self::blocks_for_elements(self.len()) == self.storage.len())
        {
            self.storage.push(0);
        }
    }"

-- vec_u32/mod.rs, lines 352-359
rust_fn f_push "    pub fn push(&mut self, x: T) {
        self.grow_if_needed();
        let idx = self.num_elements;
        // max len is usize::MAX
        self.num_elements =
            self.num_elements.checked_add(1).expect(\"capacity overflow\");
        self.set(idx, x);
    }"

-- vec_u32/mod.rs, lines 360-369
rust_fn f_pop "    pub fn pop(&mut self) -> Option<T> {
        if self.is_empty() {
            None
        } else {
            let x = self.get(self.num_elements - 1).unwrap();
            self.num_elements -= 1;

            Some(x)
        }
    }"

-- vec_u32/mod.rs, lines 151-159
rust_fn f_truncate "    pub fn truncate(&mut self, len: usize) {
        // Should this function truncate the storage?
        // Currently it doesn't, and we must use self.fix_storage()
        if len < self.num_elements {
            unsafe {
                self.set_len(len);
            }
        }
    }"

-- vec_u32/mod.rs, lines 429-432
rust_fn f_clear "    pub fn clear(&mut self) {
        // This doesn't actually clear anything, it justs sets the len to 0
        self.truncate(0);
    }"

-- vec_u32/mod.rs, lines 103-107
rust_fn f_capacity "    pub fn capacity(&self) -> usize {
        self.storage
            .capacity()
            .saturating_mul(Self::ELEMS_PER_BLOCK)
    }"

-- vec_u32/mod.rs, lines 128-145
rust_fn f_reserve "    pub fn reserve(&mut self, additional: usize) {
        let desired_cap = self
            .len()
            .checked_add(additional)
            .expect(\"capacity overflow\");
        // if desired_cap > self.capacity() {
            // Optimistically reserve more than is needed
            // And zero-out the storage, to enable get_raw and set_raw
            // TODO: should we? reserve is not meant to change the len
            // the problem is that set_len does not set the len of the
            // storage... but that would be too inefficient, it may be
            // better to just add calls to fix_storage() in clone()
            //let old_slen = self.storage.len();
        //}
        // Always resize storage until we can be sure that
        // self.storage.len() == self.storage.capacity()
        self.storage.resize(desired_cap / Self::ELEMS_PER_BLOCK + 1, 0);
    }"

-- vec_u32/mod.rs, lines 147-150
rust_fn f_shrink_to_fit "    pub fn shrink_to_fit(&mut self) {
        self.fix_storage();
        self.storage.shrink_to_fit();
    }"

-- vec_u32/mod.rs, lines 173-178
rust_fn f_swap_remove "    pub fn swap_remove(&mut self, index: usize) -> T {
        let length = self.len();
        self.swap(index, length - 1);

        self.pop().unwrap()
    }"

-- vec_u32/mod.rs, lines 207-249
rust_fn f_insert "    pub fn insert(&mut self, index: usize, element: T) {
        let shift_storage = |block: &mut StorageBlock, at_zero: StorageBlock| {
            let last_bit_offset = (Self::ELEMS_PER_BLOCK - 1) * Self::BITS_PER_ELEM;
            let last = *block >> last_bit_offset & Self::ELEMENT_MASK;
            *block <<= Self::BITS_PER_ELEM;
            *block |= at_zero;

            last
        };

        // Increment the len by 1 and allocate memory if needed
        self.push(element);

        let slow_insert = index % Self::ELEMS_PER_BLOCK;
        let self_len = self.len();
        let mut prev = element.to_discr();
        let mut i = index;
        // Skip this part if index % Self::ELEMS_PER_BLOCK == 0
        if slow_insert > 0 {
            let slow_limit = index - slow_insert + Self::ELEMS_PER_BLOCK;
            let slow_limit = cmp::min(slow_limit, self_len);
            while i < slow_limit {
                unsafe {
                    // This is safe if we stay inside the same storage
                    // block, even if we wanted to access i > self.len()
                    let next = self.get_raw_unchecked(i); 
                    self.set_raw_unchecked(i, prev);
                    prev = next;
                }
                i += 1;
            }
        }

        if i < self.len() {
            // Shift the storage blocks, including the last block
            let (ib, _) = Self::block_index(i);
            let (last_ib, _) = Self::block_index(self.len() - 1);
            let mut prev = prev as StorageBlock;
            for i in ib..(last_ib + 1) {
                prev = shift_storage(&mut self.storage[i], prev);
            }
        }
    }"

-- vec_u32/mod.rs, lines 272-313
rust_fn f_remove "    pub fn remove(&mut self, index: usize) -> T {
        let x = self.get(index).unwrap();

        let shift_storage = |block: &mut StorageBlock, at_zero: StorageBlock| {
            let last = *block & Self::ELEMENT_MASK;
            let end_bit_offset = (Self::ELEMS_PER_BLOCK - 1) * Self::BITS_PER_ELEM;
            *block >>= Self::BITS_PER_ELEM;
            *block |= at_zero << end_bit_offset;

            last
        };

        let mut i = index;
        let length = self.len() - 1;
        let block_limit = (1 + Self::block_index(i).0) * Self::ELEMS_PER_BLOCK;
        let slow_limit = cmp::min(length, block_limit);
        while i < slow_limit {
            unsafe { // safe: i + 1 < self.len()
                let next = self.get_raw_unchecked(i + 1);
                self.set_raw_unchecked(i, next);
            }
            i += 1;
        }

        let prev = unsafe {
            self.get_raw_unchecked(self.len() - 1)
        };

        self.num_elements -= 1;

        if i < self.len() {
            // Shift the storage blocks, including the last block
            let (ib, _) = Self::block_index(i);
            let (last_ib, _) = Self::block_index(self.len() - 1);
            let mut prev = prev as StorageBlock;
            for i in (ib..(last_ib + 1)).rev() {
                prev = shift_storage(&mut self.storage[i], prev);
            }
        }

        x
    }"

-- vec_u32/mod.rs, lines 764-816
rust_fn f_any "    pub fn any(&self, x: T) -> bool {
        // This could be magically inserted by LLVM, but I have not seen the
        // assembly yet, so just to be sure:
        if self.is_empty() {
            return false;
        }
        let (last_block, last_elem_shift) = Self::block_index(self.len());
        // Process all the other blocks, which are complete

        // Mask the unused bits to 0. Eg. if BITS_PER_ELEM = 15 and
        // STORAGE_BLOCK_SIZE = 30, the 2 most significant bits are unused.
        //let valid_mask = !0 >> (STORAGE_BLOCK_SIZE % Self::BITS_PER_ELEM);
        // 2^BITS_PER_ELEM - 1
        let num_variants_p2 = Self::ELEMENT_MASK;
        // A mask where all the elements have discriminant value of 1
        let one_mask = (!0 / num_variants_p2) >> (STORAGE_BLOCK_SIZE % Self::BITS_PER_ELEM);
        // A mask where the highest bit of each element is set to 1
        let high_mask = one_mask << (Self::BITS_PER_ELEM - 1);
        // A mask where all the elements have discriminant value of x
        let x = x.to_discr();
        let x_mask = x as StorageBlock * one_mask;
        // For example, if we set bits_per_elem to 4:
        // one_mask  = 0x11111111;
        // high_mask = 0x88888888;
        // x_mask    = 0x33333333; (when x = 3)

        // https://graphics.stanford.edu/~seander/bithacks.html
        // #define haszero(v) (((v) - 0x01010101UL) & ~(v) & 0x80808080UL)
        // #define hasvalue(x,n) (haszero((x) ^ (~0UL/255 * (n))))
        let haszero = |v: StorageBlock| -> bool {
            ((v.wrapping_sub(one_mask as StorageBlock)) & !v & high_mask) != 0
        };

        for i in 0..last_block {
            if haszero(self.storage[i] ^ x_mask) {
                return true;
            }
        }

        // Check last block
        // This branch can be safely removed, as haszero(0xFFFFFFFF) will return false
        // So it could be replaced by return haszero(... | last_block_mask)
        if last_elem_shift != 0 {
            // Mask which sets the remaining elements to all ones, so they
            // do not affect the result of haszero
            let last_block_mask = !0 << (last_elem_shift);
            if haszero((self.storage[last_block] ^ x_mask) | last_block_mask) {
                return true;
            }
        }

        false
    }"

-- vec_u32/mod.rs, lines 845-885
rust_fn f_all "    pub fn all(&self, x: T) -> bool {
        if self.is_empty() {
            return true;
        }
        let (last_block, last_elem_shift) = Self::block_index(self.len());

        // Mask the unused bits to 0. Eg. if BITS_PER_ELEM = 15 and
        // STORAGE_BLOCK_SIZE = 30, the 2 most significant bits are unused.
        let valid_mask = !0 >> (STORAGE_BLOCK_SIZE % Self::BITS_PER_ELEM);
        // 2^BITS_PER_ELEM - 1
        let num_variants_p2 = Self::ELEMENT_MASK;
        // A mask where all the elements have discriminant value of 1
        let one_mask = (!0 / num_variants_p2) >> (STORAGE_BLOCK_SIZE % Self::BITS_PER_ELEM);
        // A mask where all the elements have discriminant value of x
        let x = x.to_discr();
        let x_mask = x as StorageBlock * one_mask;
        // For example, if we set bits_per_elem to 4:
        // one_mask  = 0x11111111;
        // x_mask    = 0x33333333; (when x = 3)
        // Then checking for all(x == 3) is as easy as storage[i] == x_mask

        // Iterate in reverse order because we may have loaded the last block
        // in the previous block of code, this way we can reuse the cache.
        for i in 0..last_block {
            if self.storage[i] & valid_mask != x_mask {
                return false;
            }
        }

        // Check last block
        // This branch can be safely removed, but I am not sure about the performance
        // differences.
        if last_elem_shift != 0 {
            let last_block_mask = !(!0 << (last_elem_shift));
            if self.storage[last_block] & last_block_mask != x_mask & last_block_mask {
                return false;
            }
        }

        true
    }"

-- vec_u32/mod.rs, lines 324-344
rust_fn f_retain "    pub fn retain<F>(&mut self, mut f: F)
    where
        F: FnMut(&T) -> bool
    {
        let mut i_get = 0;
        let mut i_set = 0;

        let l = self.len();
        while i_get < l {
            let x = self.get(i_get).unwrap();
            if f(&x) {
                self.set(i_set, x);
                i_set += 1;
            }
            i_get += 1;
        }

        unsafe {
            self.set_len(i_set);
        }
    }"

-- vec_u32/mod.rs, lines 638-649
rust_fn f_for_each "    pub fn for_each<F>(&mut self, mut f: F)
    where
        F: FnMut(&mut T),
    {
        let l = self.len();
        for i in 0..l {
            let mut x = self.get(i).unwrap();
            f(&mut x);
            // if x changed?
            self.set(i, x);
        }
    }"

-- vec_u32/mod.rs, lines 907-922
rust_fn f_extend "    fn extend<I: IntoIterator<Item = T>>(&mut self, iter: I) {
        let mut iter = iter.into_iter();
        let iter_len = iter.size_hint().0;
        let self_len = self.len();
        // We could resize and use set_raw_unchecked, for speed
        self.reserve(iter_len);
        self.num_elements += iter_len;
        for i in 0..iter_len {
            self.set(self_len + i, iter.next().unwrap());
        }

        // Push the remaining elements, if any
        for elem in iter {
            self.push(elem);
        }
    }"

-- vec_u32/mod.rs, lines 480-525
rust_fn f_extend_with_value "    fn extend_with_value(&mut self, value: T, count: usize) {
        if count <= 4 * Self::ELEMS_PER_BLOCK {
            // Slow path, the overhead is not worth it
            self.extend(repeat(value).take(count));
        } else {
            // First fill out the last storage block:
            let to_insert_first = Self::ELEMS_PER_BLOCK -
                                (self.len() % Self::ELEMS_PER_BLOCK);
            self.extend(repeat(value).take(to_insert_first));
            let count_end = count - to_insert_first;
            let count_blocks = count_end / Self::ELEMS_PER_BLOCK;
            let to_insert_mid = count_blocks * Self::ELEMS_PER_BLOCK;
            let to_insert_last = count - (to_insert_first + to_insert_mid);

            let d = value.to_discr();
            let mut block_value = d as StorageBlock;
            let mut i = Self::BITS_PER_ELEM;

            // Assuming that STORAGE_BLOCK_SIZE is a power of 2
            while i < STORAGE_BLOCK_SIZE {
                block_value |= block_value << i;
                i *= 2;
            }

            let old_len = self.len();

            // Set storage len to self.len() / Self::ELEMS_PER_BLOCK,
            // so pushing to the enumvec is equivalent to pushing to storage
            self.fix_storage();
            self.storage.reserve(count_blocks + (to_insert_last > 0) as usize);

            // Now fill the itermediate blocks using memcpy, this is
            // the optimization
            for _ in 0..count_blocks {
                let storage_len = self.storage.len();
                self.storage.resize(storage_len + count_blocks, block_value);
            }

            unsafe {
                self.set_len(old_len + count_blocks * Self::ELEMS_PER_BLOCK);
            }

            // Finally fill out the remaining elements
            self.extend(repeat(value).take(to_insert_last));
        }
    }"

-- vec_u32/mod.rs, lines 461-470
rust_fn f_resize "    pub fn resize(&mut self, new_len: usize, value: T)
    {
        let len = self.len();

        if new_len > len {
            self.extend_with_value(value, new_len - len);
        } else {
            self.truncate(new_len);
        }
    }"

-- vec_u32/mod.rs, lines 87-93
rust_fn f_with_capacity "    pub fn with_capacity(n: usize) -> Self {
        Self {
            storage: Storage::with_capacity(Self::blocks_for_elements(n)),
            num_elements: 0,
            phantom: PhantomData,
        }
    }"

-- vec_u32/mod.rs, lines 897-903
rust_fn f_default "    fn default() -> Self {
        Self {
            storage: Storage::new(),
            num_elements: 0,
            phantom: PhantomData,
        }
    }"

-- vec_u32/mod.rs, lines 84-86
rust_fn f_new "    pub fn new() -> Self {
        Default::default()
    }"

-- vec_u32/mod.rs, lines 668-674
rust_fn f_from_elem "    pub fn from_elem(x: T, n: usize) -> Self
    {
        let mut v = EnumVec::new();
        v.extend_with_value(x, n);

        v
    }"

-- vec_u32/mod.rs, lines 685-691
rust_fn f_from_slice "    pub fn from_slice(x: &[T]) -> Self
    {
        let mut v = EnumVec::new();
        v.extend(x.iter().cloned());

        v
    }"

-- vec_u32/mod.rs, lines 926-931
rust_fn f_from_iter "    fn from_iter<I: IntoIterator<Item = T>>(iter: I) -> Self {
        let mut v = EnumVec::new();
        v.extend(iter);

        v
    }"

-- vec_u32/mod.rs, lines 388-412
rust_fn f_append "    pub fn append(&mut self, other: &mut Self) {
        let other_len = other.len();
        let self_len = self.len();
        if self.len() % Self::ELEMS_PER_BLOCK == 0 {
            // If the last block is full, we can just append the raw
            // representation
            // But first, we must fix the storage because its len may be bigger
            // than necessary
            self.fix_storage();
            other.fix_storage();
            self.storage.append(&mut other.storage);
            self.num_elements += other_len;
        } else {
            // Otherwise, just push every element
            self.reserve(other_len);
            unsafe { // We just reserved space
                self.set_len(self_len + other_len);
                for i in 0..other_len {
                    self.set_raw_unchecked(self_len + i, other.get_raw_unchecked(i));
                }
            }

            other.clear();
        }
    }"

-- smallvec_u32/mod.rs, lines 389-414
rust_fn f_append_small "    pub fn append(&mut self, other: &mut Self) {
        let other_len = other.len();
        let self_len = self.len();
        if self.len() % Self::ELEMS_PER_BLOCK == 0 {
            // If the last block is full, we can just append the raw
            // representation
            // But first, we must fix the storage because its len may be bigger
            // than necessary
            self.fix_storage();
            other.fix_storage();
            self.storage.extend_from_slice(&other.storage);
other.clear();
            self.num_elements += other_len;
        } else {
            // Otherwise, just push every element
            self.reserve(other_len);
            unsafe { // We just reserved space
                self.set_len(self_len + other_len);
                for i in 0..other_len {
                    self.set_raw_unchecked(self_len + i, other.get_raw_unchecked(i));
                }
            }

            other.clear();
        }
    }"

-- vec_u32/mod.rs, lines 443-459
rust_fn f_split_off "    pub fn split_off(&mut self, at: usize) -> Self {
        assert!(at <= self.len(), \"`at` out of bounds\");
        // If at is the first element of a block, we could split_off the
        // internal storage instead, but we don't do that yet

        let other_len = self.len() - at;
        let mut other = Self::with_capacity(other_len);
        unsafe {
            other.set_len(other_len);
            for i in 0..other_len {
                other.set_raw_unchecked(i, self.get_raw_unchecked(at + i));
            }
            self.set_len(at);
        }

        other
    }"

-- vec_u32/mod.rs, lines 1093-1109
rust_fn f_eq "    fn eq(&self, other: &EnumVec<T>) -> bool {
        // TODO: efficient block-wise comparison
        if self.len() == other.len() {
            let l = self.len();
            for i in 0..l {
                unsafe { // Safe because we just checked the length
                    if self.get_raw_unchecked(i) != other.get_raw_unchecked(i) {
                        return false;
                    }
                }
            }

            true
        } else {
            false
        }
    }"

-- vec_u32/mod.rs, lines 1115-1121
rust_fn f_hash "    fn hash<H: Hasher>(&self, state: &mut H) {
        let l = self.len();
        for i in 0..l {
            let x = unsafe { self.get_raw_unchecked(i) };
            x.hash(state);
        }
    }"

-- vec_u32/mod.rs, lines 939-941
rust_fn f_from "    fn from(v: Vec<T>) -> Self {
        EnumVec::from_iter(v)
    }"

-- vec_u32/mod.rs, lines 608-610
rust_fn f_iter "    pub fn iter<'a>(&'a self) -> EnumVecIter<'a, T> {
        (&self).into_iter()
    }"

-- vec_u32/mod.rs, lines 661-666
rust_fn f_to_vec "    pub fn to_vec(&self) -> Vec<T> {
        let mut v = Vec::with_capacity(self.len());
        v.extend(self.iter());

        v
    }"

-- vec_u32/mod.rs, lines 954-960
rust_fn f_into_iter "    fn into_iter(self) -> Self::IntoIter {
        let l = self.len();
        EnumVecIter {
            v: &self,
            range: 0..l,
        }
    }"

-- vec_u32/mod.rs, lines 967-973
rust_fn f_into_iter_owned "    fn into_iter(self) -> Self::IntoIter {
        let l = self.len();
        EnumVecIntoIter {
            v: self,
            range: 0..l,
        }
    }"

-- vec_u32/mod.rs, lines 1014-1016
rust_fn f_next "    fn next(&mut self) -> Option<Self::Item> {
        self.range.next().map(|x| self.v.get(x).unwrap())
    }"

-- vec_u32/mod.rs, lines 1018-1020
rust_fn f_size_hint "    fn size_hint(&self) -> (usize, Option<usize>) {
        self.range.size_hint()
    }"

-- vec_u32/mod.rs, lines 1022-1024
rust_fn f_count "    fn count(self) -> usize {
        self.size_hint().0
    }"

-- vec_u32/mod.rs, lines 1026-1028
rust_fn f_nth "    fn nth(&mut self, n: usize) -> Option<Self::Item> {
        self.range.nth(n).map(|x| self.v.get(x).unwrap())
    }"

-- vec_u32/mod.rs, lines 1032-1034
rust_fn f_next_back "    fn next_back(&mut self) -> Option<Self::Item> {
        self.range.next_back().map(|x| self.v.get(x).unwrap())
    }"

end Source
end EnumVecModel
