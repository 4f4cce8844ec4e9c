#!/usr/bin/env python3
"""Write lean/Verif/Source/Text.lean: the text of the methods of EnumVec, copied from /repo, and check that the texts are the same in all six modules.
`mksource.py --check` only compares the committed file with /repo."""
import re, sys
OUT = '/verif/lean/Verif/Source/Text.lean'
DIR = '/repo/enum_vec/src/'
F = open(DIR + 'vec_u32/mod.rs').read().split('\n')
S = open(DIR + 'smallvec_u32/mod.rs').read().split('\n')
def find(lines, name, k=0):
    i = [i for i, l in enumerate(lines) if re.match(r'    (pub )?(unsafe )?fn %s\b' % name, l)][k]
    j = next(j for j in range(i, len(lines)) if lines[j] == '    }')
    return i + 1, j + 1, '\n'.join(lines[i:j + 1])
NAMES = '''block_index blocks_for_elements len is_empty set_len get_raw_unchecked set_raw_unchecked get_raw set_raw get set swap fix_storage
grow_if_needed push pop truncate clear capacity reserve shrink_to_fit swap_remove insert remove any all retain for_each extend extend_with_value
resize with_capacity default new from_elem from_slice from_iter append split_off eq hash
from iter to_vec into_iter into_iter_owned next size_hint count nth next_back'''.split()
# the first `next` is commented out; there are two iterators, whose methods have the same text
WHICH = {'next': ('next', 1), 'into_iter_owned': ('into_iter', 1)}
TWICE = 'next size_hint count nth next_back'.split()
esc = lambda t: t.replace('\\', '\\\\').replace('"', '\\"')
out = '''import Verif.Source.Syntax

/-!
# The text

The methods of `EnumVec`, copied from `enum_vec/src/vec_u32/mod.rs` by `tools/mksource.py`. The texts are the same, letter by letter, in `vec_u8`, `vec_u16`, `vec_u64`,
`vec_u128` and `smallvec_u32`, but for `append` in `smallvec_u32`.
-/

namespace EnumVecModel
namespace Source

set_option maxRecDepth 100000
'''
for n in NAMES:
    a, b, t = find(F, *WHICH.get(n, (n, 0)))
    if n in TWICE and t != find(F, n, WHICH.get(n, (n, 0))[1] + 1)[2]:
        sys.exit('%s differs' % n)
    out += '\n-- vec_u32/mod.rs, lines %d-%d\nrust_fn f_%s "%s"\n' % (a, b, n, esc(t))
    for m in 'vec_u8 vec_u16 vec_u64 vec_u128 smallvec_u32'.split():
        if t not in open(DIR + m + '/mod.rs').read():
            if (n, m) == ('append', 'smallvec_u32'):
                a, b, t = find(S, n)
                out += '\n-- smallvec_u32/mod.rs, lines %d-%d\nrust_fn f_append_small "%s"\n' % (a, b, esc(t))
            else:
                sys.exit('%s differs in %s' % (n, m))
out += '\nend Source\nend EnumVecModel\n'
# the rest
ROUT = '/verif/lean/Verif/Source/RestText.lean'
rout = '''import Verif.Source.Syntax

/-!
# The text of the rest

`Debug`, `Into<Vec>`, `storage()` and `storage_mut()` of `EnumVec`, copied from `enum_vec/src/vec_u32/mod.rs` by `tools/mksource.py`; the same in all six modules. With `Text.lean` these are
all functions of the file (`iter_mut`, its iterator and `Rem` are in comments).
-/

namespace EnumVecModel
namespace Source

set_option maxRecDepth 100000
'''
REST = 'fmt into storage storage_mut'.split()
for n in REST:
    a, b, t = find(F, n)
    rout += '\n-- vec_u32/mod.rs, lines %d-%d\nrust_fn f_%s "%s"\n' % (a, b, n, esc(t))
    for m in 'vec_u8 vec_u16 vec_u64 vec_u128 smallvec_u32'.split():
        assert t in open(DIR + m + '/mod.rs').read()
rout += '\nend Source\nend EnumVecModel\n'
live = re.sub(r'/\*.*?\*/', '', '\n'.join(l.split('//')[0] for l in F[:F.index('#[cfg(test)]')]), flags=re.S)
assert sorted(re.findall(r'\bfn (\w+)', live)) == sorted([n for n in NAMES if n != 'into_iter_owned'] + REST + ['into_iter'] + TWICE), re.findall(r'\bfn (\w+)', live)
# constants
COUT = '/verif/lean/Verif/Source/ConstText.lean'
cout = '''import Verif.Source.Syntax

/-!
# The text of the constants

The constants of the six modules, copied from `enum_vec/src/*/mod.rs` by `tools/mksource.py`. Those of `smallvec_u32` are those of `vec_u32`.
-/

namespace EnumVecModel
namespace Source

set_option maxRecDepth 100000
'''
def const(lines, start):
    i = [i for i, l in enumerate(lines) if l.strip().startswith(start)]
    if not i: return None
    j = next(j for j in range(i[0], len(lines)) if lines[j].endswith(';'))
    return i[0] + 1, j + 1, '\n'.join(lines[i[0]:j + 1])
STARTS = [('block', 'type StorageBlock'), ('size', 'const STORAGE_BLOCK_SIZE'), ('bits', 'const BITS_PER_ELEM'), ('many', 'const ERROR_TOO_MANY_VARIANTS'),
          ('zero', 'const ERROR_ZERO_SIZED'), ('elems', 'const ELEMS_PER_BLOCK'), ('mask', 'const ELEMENT_MASK')]
seen = {}
lists = ''
for m in 'vec_u8 vec_u16 vec_u32 smallvec_u32 vec_u64 vec_u128'.split():
    lines = open(DIR + m + '/mod.rs').read().split('\n')
    names = []
    for short, start in STARTS:
        r = const(lines, start)
        if r is None: continue
        a, b, t = r
        if t not in seen:
            seen[t] = 'k_%s_%s' % (short, m.split('_')[1])
            cout += '\n-- %s/mod.rs, lines %d-%d\nrust_const %s "%s"\n' % (m, a, b, seen[t], esc(t))
        names.append(seen[t])
    lists += '\n/-- The constants of `%s`. -/\ndef consts_%s : List Const := [%s]\n' % (m, m, ', '.join(names))
cout += lists + '\nend Source\nend EnumVecModel\n'
# the impls of enum_like
LOUT = '/verif/lean/Verif/Source/LikeText.lean'
lout = '''import Verif.Source.LikeSyntax

/-!
# The text of `enum_like`

The `impl` items of `enum_like/src/lib.rs`, copied by `tools/mksource.py`: all but the ones in macros (`MacroRules.lean`) and the empty ones.
-/

namespace EnumVecModel
namespace Source
namespace Like

set_option maxRecDepth 100000
'''
L = open('/repo/enum_like/src/lib.rs').read().split('\n')
for n, start in [('unit', 'unsafe impl EnumLike for ()'), ('bool', 'unsafe impl EnumLike for bool'), ('option', 'unsafe impl<T: EnumLike> EnumLike for Option<T>'),
                 ('result', 'unsafe impl<T: EnumLike, S: EnumLike> EnumLike for Result<T, S>'), ('tuple1', 'unsafe impl<T: EnumLike> EnumLike for (T,)'),
                 ('pair', 'unsafe impl<T: EnumLike, S: EnumLike> EnumLike for (T, S)'), ('array0', 'unsafe impl<T: EnumLike> EnumLike for [T; 0]'),
                 ('packed8', 'impl<T: EnumLike> PackedU8<T>'), ('packed16', 'impl<T: EnumLike> PackedU16<T>'),
                 ('values', 'impl<T: EnumLike> Values<T>'), ('iterator', 'impl<T: EnumLike> Iterator for Values<T>')]:
    i = [i for i, l in enumerate(L) if l == start + ' {']
    assert len(i) == 1, start
    j = next(j for j in range(i[0], len(L)) if L[j] == '}')
    lout += '\n-- enum_like/src/lib.rs, lines %d-%d\nrust_impl i_%s "%s"\n' % (i[0] + 1, j + 1, n, esc('\n'.join(L[i[0]:j + 1])))
lout += '\nend Like\nend Source\nend EnumVecModel\n'
# enum_set
EOUT = '/verif/lean/Verif/Source/SetText.lean'
eout = '''import Verif.Source.LikeSyntax

/-!
# The text of `enum_set`

The `impl` items of `enum_set/src/lib.rs`, copied by `tools/mksource.py`: all of them.
-/

namespace EnumVecModel
namespace Source
namespace SetText

open Like

set_option maxRecDepth 100000
'''
L = open('/repo/enum_set/src/lib.rs').read().split('\n')
L = L[:next(i for i, l in enumerate(L) if l == '/*')]  # a comment, then the tests
starts = [('set', 'impl<E: EnumLike> EnumSet<E>'), ('default', 'impl<E: EnumLike> Default for EnumSet<E>'), ('from_iter', 'impl<E: EnumLike> FromIterator<E> for EnumSet<E>'),
          ('extend', 'impl<E: EnumLike> Extend<E> for EnumSet<E>'), ('debug', 'impl<E: EnumLike + fmt::Debug> fmt::Debug for EnumSet<E>'),
          ('wrap', 'impl<E: EnumLike, I: Iterator<Item=usize>> WrapIter<E, I>'), ('iterator', 'impl<E: EnumLike, I: Iterator<Item=usize>> Iterator for WrapIter<E, I>'),
          ('into_iter', "impl<'a, E: EnumLike> IntoIterator for &'a EnumSet<E>")]
assert sum(l.startswith('impl') for l in L) == len(starts)
for n, start in starts:
    i = [i for i, l in enumerate(L) if l == start + ' {']
    assert len(i) == 1, start
    j = next(j for j in range(i[0], len(L)) if L[j] == '}')
    eout += '\n-- enum_set/src/lib.rs, lines %d-%d\nrust_item s_%s "%s"\n' % (i[0] + 1, j + 1, n, esc('\n'.join(L[i[0]:j + 1])))
eout += '\nend SetText\nend Source\nend EnumVecModel\n'
# macros of enum_like
MOUT = '/verif/lean/Verif/Source/MacroText.lean'
mout = '''import Verif.Source.MacroEngine

/-!
# The text of the macros

The definitions and calls of the macros of `enum_like/src/lib.rs` and the definition of `enum_vec!` (`enum_vec/src/lib.rs`), copied by `tools/mksource.py`: all of them.
-/

namespace EnumVecModel
namespace Source
namespace Mac

set_option maxRecDepth 100000
'''
L = open('/repo/enum_like/src/lib.rs').read().split('\n')
L = L[:next(i for i, l in enumerate(L) if l == '#[cfg(test)]')]
starts = [('m_tuple_impls', 'macro_rules! tuple_impls'), ('m_reverse_idx_b', 'macro_rules! reverse_idx_b'), ('m_reverse_idx_a', 'macro_rules! reverse_idx_a'), ('c_tuple_impls', 'tuple_impls!'),
          ('m_array_impls', 'macro_rules! array_impls'), ('m_reverse_idx_c', 'macro_rules! reverse_idx_c'), ('c_array_impls', 'array_impls!')]
assert sum('macro_rules!' in l for l in L) == 5
for n, start in starts:
    i = [i for i, l in enumerate(L) if l == start + ' {']
    assert len(i) == 1, start
    j = next(j for j in range(i[0], len(L)) if L[j] == '}' and (n[0] == 'c' or L[j - 1] == '    };'))
    mout += '\n-- enum_like/src/lib.rs, lines %d-%d\nrust_%s %s "%s"\n' % (i[0] + 1, j + 1, 'macro' if n[0] == 'm' else 'call', n, esc('\n'.join(L[i[0]:j + 1])))
L = open('/repo/enum_vec/src/lib.rs').read().split('\n')
assert sum('macro_rules!' in l for l in L) == 1
i = [i for i, l in enumerate(L) if l == 'macro_rules! enum_vec {']
j = next(j for j in range(i[0], len(L)) if L[j] == '}')
mout += '\n-- enum_vec/src/lib.rs, lines %d-%d\nrust_macro m_enum_vec "%s"\n' % (i[0] + 1, j + 1, esc('\n'.join(L[i[0]:j + 1])))
mout += '\nend Mac\nend Source\nend EnumVecModel\n'
# the templates of the derive macro
QOUT = '/verif/lean/Verif/Source/QuoteText.lean'
qout = '''import Verif.Source.QuoteEngine

/-!
# The text of the templates of the derive macro

The arguments of `quote!` and `parse_quote!` in `enum_like_derive/src/lib.rs`, copied by `tools/mksource.py`: all of them. `q_f_k` is number `k` in the function `f`.
-/

namespace EnumVecModel
namespace Quote

set_option maxRecDepth 100000
'''
S = open('/repo/enum_like_derive/src/lib.rs').read()
S = re.sub(r'//[^\n]*', lambda m: ' ' * len(m.group(0)), S)
fns = [(m.start(), m.group(1)) for m in re.finditer(r'\bfn (\w+)\(', S) if 'quote' not in m.group(1)]
seen = {}
quotes = list(re.finditer(r'\bquote!\s*([({])|\bparse_quote!\s*([({])', S))
assert len(quotes) == S.count('quote!')
end, spans = 0, []
for m in quotes:
    assert m.start() >= end
    depth, i = 1, m.end()
    while depth:
        depth += {'(': 1, '{': 1, '[': 1, ')': -1, '}': -1, ']': -1}.get(S[i], 0)
        i += 1
    end = i
    # the functions in the templates are not functions of the macro
    f = [n for p, n in fns if p < m.start() and not any(a <= p < b for a, b in spans)][-1]
    spans.append((m.start(), end))
    k = seen.get(f, 0)
    seen[f] = k + 1
    a, b = S.count('\n', 0, m.start()) + 1, S.count('\n', 0, end) + 1
    qout += '\n-- enum_like_derive/src/lib.rs, %s\nrust_quote q_%s_%d "%s"\n' % ('line %d' % a if a == b else 'lines %d-%d' % (a, b), f, k, esc(S[m.end():end - 1]))
qout += '\nend Quote\nend EnumVecModel\n'
FILES = [(OUT, out), (ROUT, rout), (COUT, cout), (LOUT, lout), (EOUT, eout), (MOUT, mout), (QOUT, qout)]
if '--check' in sys.argv:
    sys.exit('texts are out of date' if any(open(p).read() != t for p, t in FILES) else None)
for p, t in FILES: open(p, 'w').write(t)
