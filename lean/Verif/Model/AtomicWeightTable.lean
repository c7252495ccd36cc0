import Verif.Py
/-! Generated by `tools/gen_weights.py` from the literal tables of `InterPhon/util/atomic_weight.py`. -/
namespace Interphon.AtomicWeight
open Py

/-- `periodic_table`, `util/atomic_weight.py:24-144`: rows (short name, full name, number as string);
row 0 is the header row. -/
def periodicTable : List (List String) := [
  ["Short_name", "Full_name", "Atomic_number"],
  ["H", "Hydrogen", "1"],
  ["He", "Helium", "2"],
  ["Li", "Lithium", "3"],
  ["Be", "Beryllium", "4"],
  ["B", "Boron", "5"],
  ["C", "Carbon", "6"],
  ["N", "Nitrogen", "7"],
  ["O", "Oxygen", "8"],
  ["F", "Fluorine", "9"],
  ["Ne", "Neon", "10"],
  ["Na", "Sodium", "11"],
  ["Mg", "Magnesium", "12"],
  ["Al", "Aluminium", "13"],
  ["Si", "Silicon", "14"],
  ["P", "Phosphorus", "15"],
  ["S", "Sulfur", "16"],
  ["Cl", "Chlorine", "17"],
  ["Ar", "Argon", "18"],
  ["K", "Potassium", "19"],
  ["Ca", "Calcium", "20"],
  ["Sc", "Scandium", "21"],
  ["Ti", "Titanium", "22"],
  ["V", "Vanadium", "23"],
  ["Cr", "Chromium", "24"],
  ["Mn", "Manganese", "25"],
  ["Fe", "Iron", "26"],
  ["Co", "Cobalt", "27"],
  ["Ni", "Nickel", "28"],
  ["Cu", "Copper", "29"],
  ["Zn", "Zinc", "30"],
  ["Ga", "Gallium", "31"],
  ["Ge", "Germanium", "32"],
  ["As", "Arsenic", "33"],
  ["Se", "Selenium", "34"],
  ["Br", "Bromine", "35"],
  ["Kr", "Krypton", "36"],
  ["Rb", "Rubidium", "37"],
  ["Sr", "Strontium", "38"],
  ["Y", "Yttrium", "39"],
  ["Zr", "Zirconium", "40"],
  ["Nb", "Niobium", "41"],
  ["Mo", "Molybdenum", "42"],
  ["Tc", "Technetium", "43"],
  ["Ru", "Ruthenium", "44"],
  ["Rh", "Rhodium", "45"],
  ["Pd", "Palladium", "46"],
  ["Ag", "Silver", "47"],
  ["Cd", "Cadmium", "48"],
  ["In", "Indium", "49"],
  ["Sn", "Tin", "50"],
  ["Sb", "Antimony", "51"],
  ["Te", "Tellurium", "52"],
  ["I", "Iodine", "53"],
  ["Xe", "Xenon", "54"],
  ["Cs", "Caesium", "55"],
  ["Ba", "Barium", "56"],
  ["La", "Lanthanum", "57"],
  ["Ce", "Cerium", "58"],
  ["Pr", "Praseodymium", "59"],
  ["Nd", "Neodymium", "60"],
  ["Pm", "Promethium", "61"],
  ["Sm", "Samarium", "62"],
  ["Eu", "Europium", "63"],
  ["Gd", "Gadolinium", "64"],
  ["Tb", "Terbium", "65"],
  ["Dy", "Dysprosium", "66"],
  ["Ho", "Holmium", "67"],
  ["Er", "Erbium", "68"],
  ["Tm", "Thulium", "69"],
  ["Yb", "Ytterbium", "70"],
  ["Lu", "Lutetium", "71"],
  ["Hf", "Hafnium", "72"],
  ["Ta", "Tantalum", "73"],
  ["W", "Tungsten", "74"],
  ["Re", "Rhenium", "75"],
  ["Os", "Osmium", "76"],
  ["Ir", "Iridium", "77"],
  ["Pt", "Platinum", "78"],
  ["Au", "Gold", "79"],
  ["Hg", "Mercury", "80"],
  ["Tl", "Thallium", "81"],
  ["Pb", "Lead", "82"],
  ["Bi", "Bismuth", "83"],
  ["Po", "Polonium", "84"],
  ["At", "Astatine", "85"],
  ["Rn", "Radon", "86"],
  ["Fr", "Francium", "87"],
  ["Ra", "Radium", "88"],
  ["Ac", "Actinium", "89"],
  ["Th", "Thorium", "90"],
  ["Pa", "Protactinium", "91"],
  ["U", "Uranium", "92"],
  ["Np", "Neptunium", "93"],
  ["Pu", "Plutonium", "94"],
  ["Am", "Americium", "95"],
  ["Cm", "Curium", "96"],
  ["Bk", "Berkelium", "97"],
  ["Cf", "Californium", "98"],
  ["Es", "Einsteinium", "99"],
  ["Fm", "Fermium", "100"],
  ["Md", "Mendelevium", "101"],
  ["No", "Nobelium", "102"],
  ["Lr", "Lawrencium", "103"],
  ["Rf", "Rutherfordium", "104"],
  ["Db", "Dubnium", "105"],
  ["Sg", "Seaborgium", "106"],
  ["Bh", "Bohrium", "107"],
  ["Hs", "Hassium", "108"],
  ["Mt", "Meitnerium", "109"],
  ["Ds", "Darmstadtium", "110"],
  ["Rg", "Roentgenium", "111"],
  ["Cn", "Copernicium", "112"],
  ["Nh", "Nihonium", "113"],
  ["Fl", "Flerovium", "114"],
  ["Mc", "Moscovium", "115"],
  ["Lv", "Livermorium", "116"],
  ["Ts", "Tennessine", "117"],
  ["Og", "Oganesson", "118"]]

/-- `Atomic_Weight`, `util/atomic_weight.py:149-268`: entry 0 is `None`. -/
def atomicWeights : List (Option ℚ) := [
  none,
  some (1008 / 1000),
  some (40026 / 10000),
  some (694 / 100),
  some (90122 / 10000),
  some (1081 / 100),
  some (12011 / 1000),
  some (14007 / 1000),
  some (15999 / 1000),
  some (18998 / 1000),
  some (20180 / 1000),
  some (22990 / 1000),
  some (24305 / 1000),
  some (26982 / 1000),
  some (28085 / 1000),
  some (30974 / 1000),
  some (3206 / 100),
  some (3545 / 100),
  some (39948 / 1000),
  some (39098 / 1000),
  some (40078 / 1000),
  some (44956 / 1000),
  some (47867 / 1000),
  some (50942 / 1000),
  some (51996 / 1000),
  some (54938 / 1000),
  some (55845 / 1000),
  some (58933 / 1000),
  some (58693 / 1000),
  some (63546 / 1000),
  some (6538 / 100),
  some (69723 / 1000),
  some (72630 / 1000),
  some (74922 / 1000),
  some (78971 / 1000),
  some (79904 / 1000),
  some (83798 / 1000),
  some (85468 / 1000),
  some (8762 / 100),
  some (88906 / 1000),
  some (91224 / 1000),
  some (92906 / 1000),
  some (9595 / 100),
  some 98,
  some (10107 / 100),
  some (10291 / 100),
  some (10642 / 100),
  some (10787 / 100),
  some (11241 / 100),
  some (11482 / 100),
  some (11871 / 100),
  some (12176 / 100),
  some (12760 / 100),
  some (12690 / 100),
  some (13129 / 100),
  some (13291 / 100),
  some (13733 / 100),
  some (13891 / 100),
  some (14012 / 100),
  some (14091 / 100),
  some (14424 / 100),
  some 145,
  some (15036 / 100),
  some (15196 / 100),
  some (15725 / 100),
  some (15893 / 100),
  some (16250 / 100),
  some (16493 / 100),
  some (16726 / 100),
  some (16893 / 100),
  some (17305 / 100),
  some (17497 / 100),
  some (17849 / 100),
  some (18095 / 100),
  some (18384 / 100),
  some (18621 / 100),
  some (19023 / 100),
  some (19222 / 100),
  some (19508 / 100),
  some (19697 / 100),
  some (20059 / 100),
  some (20438 / 100),
  some (2072 / 10),
  some (20898 / 100),
  some 209,
  some 210,
  some 222,
  some 223,
  some 226,
  some 227,
  some (23204 / 100),
  some (23104 / 100),
  some (23803 / 100),
  some 237,
  some 244,
  some 243,
  some 247,
  some 247,
  some 251,
  some 252,
  some 257,
  some 258,
  some 259,
  some 266,
  some 267,
  some 268,
  some 269,
  some 270,
  some 277,
  some 278,
  some 281,
  some 282,
  some 285,
  some 286,
  some 289,
  some 290,
  some 293,
  some 294,
  some 294]

end Interphon.AtomicWeight
